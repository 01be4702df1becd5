import Verif.Conserve
import Mathlib.Algebra.MvPolynomial.PDeriv
/-!
# Concrete instances of the stencil theorems

A 5 x 5 grid without ghosts (`plane`), a 3 x 3 local box with one ghost layer (`tile`), and fields on them. Also the
sharpness of the exactness statements and the difference between `divergence` and the mathematical divergence.
-/

namespace MMSP.Stencil

/-- Serial 5 x 5 grid. -/
def plane (b : BC) : Shape where
  dim := 2
  x0 := fun _ => 0
  x1 := fun _ => 5
  b0 := fun _ => b
  b1 := fun _ => b
  ghosts := 0

theorem plane_wf (b : BC) : (plane b).Wf := ⟨Nat.zero_lt_two, fun _ _ => show (0 : Int) < 5 by decide, le_refl (0 : Int)⟩

/-- Coordinate `(a, b)`. -/
def at2 (a b : Int) : Nat → Int := fun j => if j = 0 then a else b

/-- The coordinate held by array element `p` of `plane`. -/
def planeCoord (p : Int) : Nat → Int := at2 (p / 5) (p % 5)

theorem planeCoord_raw {b : BC} {y : Nat → Int} (hy : (plane b).IsCell y) :
    ∀ j < 2, planeCoord ((plane b).rawOffset y) j = y j := by
  have h0 := hy 0 Nat.zero_lt_two
  have h1 := hy 1 Nat.one_lt_two
  have e : (plane b).rawOffset y = y 0 * 5 + y 1 := by
    simp [Shape.rawOffset, encode, plane, Shape.sx, Shape.s0, Shape.s1, slice, Finset.sum_range_succ]
  have hx0 : (plane b).x0 = fun _ => 0 := rfl
  have hx1 : (plane b).x1 = fun _ => 5 := rfl
  have hgh : (plane b).ghosts = 0 := rfl
  simp only [hx0, hx1, hgh] at h0 h1
  intro j hj
  rw [e]
  have : j = 0 ∨ j = 1 := by omega
  rcases this with rfl | rfl
  · simp only [planeCoord, at2, if_true]; omega
  · simp only [planeCoord, at2]; rw [if_neg (by decide)]; omega

/-- Interior nodes meet the hypotheses of the exactness theorems. -/
example : (plane .periodic).Wf ∧ Unmoved .serial (plane .periodic) (at2 2 3) :=
  ⟨plane_wf _, unmoved_interior _ (plane_wf _) (by
    intro j hj; have h0 : (plane .periodic).x0 = fun _ => 0 := rfl; have h1 : (plane .periodic).x1 = fun _ => 5 := rfl
    simp only [h0, h1, at2]; split <;> omega)⟩

/-- A field of samples of a polynomial in the two coordinates, `x₀² x₁ + 3 x₀`. -/
noncomputable def poly : MvPolynomial Nat ℚ :=
  MvPolynomial.X 0 ^ 2 * MvPolynomial.X 1 + MvPolynomial.C 3 * MvPolynomial.X 0

theorem sample_poly (dx : Nat → ℚ) (y : Nat → Int) :
    sample dx poly y = (dx 0 * y 0) ^ 2 * (dx 1 * y 1) + 3 * (dx 0 * y 0) := by simp [sample, poly]

theorem samples_poly (b : BC) (dx : Nat → ℚ) : Samples (plane b) (fun p => sample dx poly (planeCoord p)) (sample dx poly) := by
  intro y hy
  have h := planeCoord_raw hy
  simp only [sample_poly, h 0 (by decide), h 1 (by decide)]

theorem degree_poly (i : Nat) : MvPolynomial.degreeOf i poly ≤ 2 := by
  unfold poly
  refine (MvPolynomial.degreeOf_add_le _ _ _).trans (max_le ?_ ?_)
  · refine (MvPolynomial.degreeOf_mul_le _ _ _).trans ?_
    have h1 := MvPolynomial.degreeOf_pow_le i (MvPolynomial.X 0 : MvPolynomial Nat ℚ) 2
    rw [MvPolynomial.degreeOf_X] at h1
    rw [MvPolynomial.degreeOf_X]
    split_ifs at * <;> omega
  · refine (MvPolynomial.degreeOf_C_mul_le _ _ _).trans ?_
    rw [MvPolynomial.degreeOf_X]; split_ifs <;> omega

/-- The exactness theorem at work: with spacings 1/2 and 3 the Laplacian at node (2,3) is `2 x₁ = 18`. -/
example : laplacian (T := ℚ) .serial (plane .periodic) (fun i => if i = 0 then 1 / 2 else 3)
    (fun p => sample (fun i => if i = 0 then 1 / 2 else 3) poly (planeCoord p)) (at2 2 3) = .ok 18 := by
  rw [laplacian_exact .serial (plane_wf _) _ (by intro i _; split_ifs <;> norm_num) _ poly (samples_poly _ _)
    (fun i _ => (degree_poly i).trans (by omega)) _ (unmoved_interior _ (plane_wf _) (by
      intro j hj; have h0 : (plane .periodic).x0 = fun _ => 0 := rfl; have h1 : (plane .periodic).x1 = fun _ => 5 := rfl
      simp only [h0, h1, at2]; split <;> omega))]
  have hd : (plane .periodic).dim = 2 := rfl
  congr 1
  simp only [hd, Finset.sum_range_succ, Finset.sum_range_zero, poly, sample, at2]
  have h2 : (2 : MvPolynomial Nat ℚ) = MvPolynomial.C 2 := rfl
  simp [MvPolynomial.pderiv_X, h2]
  norm_num

/-- Exactness stops at degree four: for `x₀⁴` with unit spacing the second difference at 2 is 50, the derivative 48. -/
theorem laplacian_not_exact_quartic :
    laplacian (T := ℤ) .serial (plane .periodic) (fun _ => 1) (fun p => planeCoord p 0 ^ 4) (at2 2 3) = .ok 50 := by decide

/-- The gradient of `x₀³` with unit spacing at 2: the central difference is 13 (doubled: 26), the derivative 12. -/
theorem gradient_not_exact_cubic :
    gradient (T := ℚ) .serial (plane .periodic) (fun _ => 1) [0, 0] (fun p => (planeCoord p 0 : ℚ) ^ 3) (at2 2 3) = .ok [13, 0] := by
  rw [gradient_eq' .serial _ _ rfl _ _ (inReach_serial (plane_wf _) (by intro j hj; simp only [plane, at2]; split <;> decide)
    (by intro j hj; simp [plane]) (by intro j hj; simp [plane]))]
  have e : ∀ k, (k = 1 ∨ k = -1) → (plane .periodic).atVec .serial (bump (at2 2 3) 0 k) = (2 + k) * 5 + 3 := by
    rintro k (rfl | rfl) <;> decide
  have e' : ∀ k, (k = 1 ∨ k = -1) → (plane .periodic).atVec .serial (bump (at2 2 3) 1 k) = 13 + k := by
    rintro k (rfl | rfl) <;> decide
  have hd : List.range (plane .periodic).dim = [0, 1] := rfl
  simp only [hd, List.map_cons, List.map_nil, view, e 1 (Or.inl rfl), e (-1) (Or.inr rfl), e' 1 (Or.inl rfl), e' (-1) (Or.inr rfl)]
  simp only [planeCoord, at2]
  norm_num

/-- Linear hypotheses are met by any two fields on a node; constants give zero. -/
example : InReach .serial (plane .neumann) (at2 0 4) :=
  inReach_serial (plane_wf _) (by intro j hj; simp only [plane, at2]; split <;> decide) (by intro j hj; simp [plane])
    (by intro j hj; simp [plane])

/-- A local box of a parallel run: 3 x 3 nodes, one ghost layer, cut on both axes. -/
def tile : Shape where
  dim := 2
  x0 := fun _ => 3
  x1 := fun _ => 6
  b0 := fun _ => .parallel
  b1 := fun _ => .parallel
  ghosts := 1

/-- Even a corner node of the local box sees unmoved neighbours: they are ghosts. -/
example : tile.Wf ∧ Unmoved .mpi tile (at2 3 5) ∧ InReach .mpi tile (at2 3 5) := by
  have hw : tile.Wf := ⟨by decide, fun _ _ => show (3 : Int) < 6 by decide, by decide⟩
  refine ⟨hw, ?_, inReach_mpi hw (by intro j hj; simp only [tile, at2]; split <;> decide) (by decide)
    (by intro j hj; simp [tile])⟩
  intro j hj k hk
  have h : j = 0 ∨ j = 1 := by have : tile.dim = 2 := rfl; omega
  rcases h with rfl | rfl <;> rcases hk with rfl | rfl | rfl <;> decide

/-- Sparse cells on the plane. -/
example : laplacianSparse (T := ℤ) .serial (plane .neumann) (fun _ => 1) (fun p => if p = 0 then [(7, 2)] else [(3, p)])
    (at2 0 0) = .ok [(3, 6), (7, -4)] := by decide

example (p : Int) : Sparse.Ok (if p = 0 then [((7 : Int), (2 : ℤ))] else [(3, p)]) := by
  split <;> simp [Sparse.Ok, Sparse.keys]

/-- **C49.** `divergence` of the vector field `(x₁, x₀)` on the plane, whose divergence is zero, returns the entries
`∂x₁/∂x₀ + ∂x₁/∂x₁ = 1` and `∂x₀/∂x₀ + ∂x₀/∂x₁ = 1`. -/
theorem divergenceVec_not_divergence :
    divergenceVec (T := ℚ) .serial (plane .neumann) (fun _ => 1) (fun p => [(planeCoord p 1 : ℚ), (planeCoord p 0 : ℚ)])
      (at2 2 2) = .ok [1, 1] := by decide +kernel

/-- **C49.** Three fields on a two-dimensional grid: the call dies at the assertion. -/
example : divergenceVec (T := ℚ) .serial (plane .neumann) (fun _ => 1) (fun _ => [0, 0, 0]) (at2 2 2) = .abort 134 :=
  divergenceVec_overruns .serial Nat.zero_lt_two _ _ _ (inReach_serial (plane_wf _)
    (by intro j hj; simp only [plane, at2]; split <;> decide) (by intro j hj; simp [plane]) (by intro j hj; simp [plane])) 3
    (by decide) (fun _ _ _ => rfl)

end MMSP.Stencil
