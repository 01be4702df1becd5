import Verif.StencilProps
/-!
# Finite-difference stencils in exact arithmetic: linearity, exactness, sparse fields

`K` is any field (exact arithmetic); the floating-point `double` of the code only approximates these statements.
-/

namespace MMSP.Stencil

open Finset

variable {K : Type} [Field K]

theorem foldl_sum (f : Nat → K) : ∀ (is : List Nat) (a : K), is.foldl (fun a i => a + f i) a = a + (is.map f).sum := by
  intro is
  induction is with
  | nil => simp
  | cons i is ih => intro a; simp only [List.foldl_cons, ih, List.map_cons, List.sum_cons]; ring

theorem sum_list_range (f : Nat → K) (n : Nat) : ((List.range n).map f).sum = ∑ i ∈ range n, f i := by
  induction n with
  | zero => simp
  | succ n ih => rw [List.range_succ, List.map_append, List.sum_append, ih, Finset.sum_range_succ]; simp

/-- **C28.** What `laplacian(GRID, x)` computes. -/
theorem laplacian_eq (bd : Build) {g : Shape} (dx : Nat → K) (data : Int → K) (x : Nat → Int) (hr : InReach bd g x) :
    laplacian bd g dx data x = .ok (∑ i ∈ range g.dim,
      (view bd g data (bump x i 1) - 2 * view bd g data x + view bd g data (bump x i (-1))) / dx i ^ 2) := by
  unfold laplacian
  rw [gridAt_ok hr.1, Outcome.ok_bind, lapLoop_eq (F := view bd g data) _ _ _ _ _
    (fun i hi => ⟨gridAt_ok (hr.2 i (List.mem_range.mp hi)).1 _, gridAt_ok (hr.2 i (List.mem_range.mp hi)).2 _⟩),
    foldl_sum, sum_list_range, zero_add]
  congr 1
  refine Finset.sum_congr rfl fun i _ => ?_
  rw [lapWeight, one_add_one_eq_two, pow_two]; ring

/-- **C28.** What `laplacian(GRID, n)` computes: the second difference around node `n`, whose value is `GRID(n)`. -/
theorem laplacianNode_eq (bd : Build) {g : Shape} (hg : g.Wf) (hser : bd = .serial → g.ghosts = 0) (dx : Nat → K) (data : Int → K) {n : Int} (h0 : 0 ≤ n) (h1 : n < g.nodes)
    (hr : InReach bd g (g.position n)) :
    laplacianNode bd g dx data n = .ok (∑ i ∈ range g.dim,
      (view bd g data (bump (g.position n) i 1) - 2 * data (g.atNode bd n) + view bd g data (bump (g.position n) i (-1))) / dx i ^ 2) := by
  unfold laplacianNode
  rw [laplacian_eq bd dx data _ hr, Shape.atNode_eq_atVec hg bd hser h0 h1]
  rfl

/-- **C28.** What `divergence(GRID, x)` of a scalar field computes: the sum of the central differences. -/
theorem divergence_eq (bd : Build) {g : Shape} (dx : Nat → K) (data : Int → K) (x : Nat → Int) (hr : InReach bd g x) :
    divergence bd g dx data x = .ok (∑ i ∈ range g.dim,
      (view bd g data (bump x i 1) - view bd g data (bump x i (-1))) / (2 * dx i)) := by
  unfold divergence
  rw [divLoop_eq (F := view bd g data) _ _ _ _
    (fun i hi => ⟨gridAt_ok (hr.2 i (List.mem_range.mp hi)).1 _, gridAt_ok (hr.2 i (List.mem_range.mp hi)).2 _⟩),
    foldl_sum, sum_list_range, zero_add]
  congr 1
  refine Finset.sum_congr rfl fun i _ => ?_
  rw [gradWeight, one_add_one_eq_two]; ring

/-- **C28.** What `gradient(GRID, x)` computes. -/
theorem gradient_eq' (bd : Build) {g : Shape} (dx : Nat → K) (init : List K) (hi : init.length = g.dim) (data : Int → K)
    (x : Nat → Int) (hr : InReach bd g x) :
    gradient bd g dx init data x = .ok ((List.range g.dim).map fun i =>
      (view bd g data (bump x i 1) - view bd g data (bump x i (-1))) / (2 * dx i)) := by
  rw [gradient_eq bd dx init hi data x hr]
  congr 1
  refine List.map_congr_left fun i _ => ?_
  rw [gradWeight, one_add_one_eq_two]; ring

/-- **C28.** `laplacian` is linear in the field. -/
theorem laplacian_linear (bd : Build) {g : Shape} (dx : Nat → K) (u v : Int → K) (a b : K) (x : Nat → Int) {lu lv : K}
    (hu : laplacian bd g dx u x = .ok lu) (hv : laplacian bd g dx v x = .ok lv) :
    laplacian bd g dx (fun p => a * u p + b * v p) x = .ok (a * lu + b * lv) := by
  have hr := (laplacian_returns_iff bd g dx u x).mp ⟨_, hu⟩
  rw [laplacian_eq bd dx u x hr, Outcome.ok.injEq] at hu
  rw [laplacian_eq bd dx v x hr, Outcome.ok.injEq] at hv
  rw [laplacian_eq bd dx _ x hr, ← hu, ← hv, Finset.mul_sum, Finset.mul_sum, ← Finset.sum_add_distrib]
  congr 1
  refine Finset.sum_congr rfl fun i _ => ?_
  simp only [view]; ring

/-- **C28.** `divergence` is linear in the field. -/
theorem divergence_linear (bd : Build) {g : Shape} (dx : Nat → K) (u v : Int → K) (a b : K) (x : Nat → Int)
    (hr : InReach bd g x) {lu lv : K}
    (hu : divergence bd g dx u x = .ok lu) (hv : divergence bd g dx v x = .ok lv) :
    divergence bd g dx (fun p => a * u p + b * v p) x = .ok (a * lu + b * lv) := by
  rw [divergence_eq bd dx u x hr, Outcome.ok.injEq] at hu
  rw [divergence_eq bd dx v x hr, Outcome.ok.injEq] at hv
  rw [divergence_eq bd dx _ x hr, ← hu, ← hv, Finset.mul_sum, Finset.mul_sum, ← Finset.sum_add_distrib]
  congr 1
  refine Finset.sum_congr rfl fun i _ => ?_
  simp only [view]; ring

/-- **C28.** `gradient` is linear in the field. -/
theorem gradient_linear (bd : Build) {g : Shape} (dx : Nat → K) (init : List K) (hi : init.length = g.dim) (u v : Int → K)
    (a b : K) (x : Nat → Int) (hr : InReach bd g x) {lu lv : List K}
    (hu : gradient bd g dx init u x = .ok lu) (hv : gradient bd g dx init v x = .ok lv) :
    gradient bd g dx init (fun p => a * u p + b * v p) x = .ok (List.zipWith (fun s t => a * s + b * t) lu lv) := by
  rw [gradient_eq' bd dx init hi u x hr, Outcome.ok.injEq] at hu
  rw [gradient_eq' bd dx init hi v x hr, Outcome.ok.injEq] at hv
  rw [gradient_eq' bd dx init hi _ x hr, ← hu, ← hv, List.zipWith_map, List.zipWith_self]
  congr 1
  refine List.map_congr_left fun i _ => ?_
  simp only [view]; ring

/-- **C28.** All three vanish on constant fields, whatever the spacing and the boundary conditions. -/
theorem constant_field (bd : Build) {g : Shape} (dx : Nat → K) (init : List K) (hi : init.length = g.dim) (c : K)
    (x : Nat → Int) (hr : InReach bd g x) :
    laplacian bd g dx (fun _ => c) x = .ok 0 ∧ divergence bd g dx (fun _ => c) x = .ok 0 ∧
    gradient bd g dx init (fun _ => c) x = .ok (List.replicate g.dim 0) := by
  rw [laplacian_eq bd dx _ x hr, divergence_eq bd dx _ x hr, gradient_eq' bd dx init hi _ x hr]
  refine ⟨?_, ?_, ?_⟩
  · congr 1; refine Finset.sum_eq_zero fun i _ => ?_; simp only [view]; ring
  · congr 1; refine Finset.sum_eq_zero fun i _ => ?_; simp only [view]; ring
  · congr 1
    rw [List.eq_replicate_iff]
    refine ⟨by simp, fun b hb => ?_⟩
    obtain ⟨i, -, rfl⟩ := List.mem_map.mp hb
    simp only [view]; ring

/-! ## Exactness on polynomials -/

/-- The boundary handling leaves coordinate `x` and its axis neighbours alone and they are cells of the array: interior
nodes, and in parallel builds also nodes next to a ghost layer. -/
def Unmoved (bd : Build) (g : Shape) (x : Nat → Int) : Prop :=
  ∀ j < g.dim, ∀ k : Int, (k = -1 ∨ k = 0 ∨ k = 1) →
    checkBoundary bd (x j + k) (g.x0 j) (g.x1 j) (g.b0 j) (g.b1 j) = x j + k ∧
    g.s0 j ≤ x j + k ∧ x j + k < g.s1 j

/-- The array holds the samples of a function of the coordinates (ghost cells included). -/
def Samples (g : Shape) (data : Int → K) (f : (Nat → Int) → K) : Prop := ∀ y, g.IsCell y → data (g.rawOffset y) = f y

omit [Field K] in
theorem unmoved_view (bd : Build) {g : Shape} (hg : g.Wf) {x : Nat → Int} (hx : Unmoved bd g x) {data : Int → K}
    {f : (Nat → Int) → K} (hs : Samples g data f) :
    InReach bd g x ∧ view bd g data x = f x ∧
      ∀ i < g.dim, view bd g data (bump x i 1) = f (bump x i 1) ∧ view bd g data (bump x i (-1)) = f (bump x i (-1)) := by
  have key : ∀ (i : Nat) (k : Int), (k = -1 ∨ k = 0 ∨ k = 1) →
      Touches bd g (bump x i k) ∧ view bd g data (bump x i k) = f (bump x i k) := by
    intro i k hk
    have hc : ∀ j, j < g.dim → checkBoundary bd (bump x i k j) (g.x0 j) (g.x1 j) (g.b0 j) (g.b1 j) = bump x i k j := by
      intro j hj
      by_cases e : j = i
      · subst e; simp only [bump, Function.update_self]; exact (hx j hj k hk).1
      · simp only [bump, Function.update_of_ne e]; simpa using (hx j hj 0 (by omega)).1
    have hcell : g.IsCell (bump x i k) := by
      intro j hj
      by_cases e : j = i
      · subst e; simp only [bump, Function.update_self]; exact (hx j hj k hk).2
      · simp only [bump, Function.update_of_ne e]
        have := (hx j hj 0 (by omega)).2
        rw [add_zero] at this; exact this
    exact ⟨Shape.atVec_in_bounds hg bd hc hcell, by rw [view, Shape.atVec_eq_raw bd hc]; exact hs _ hcell⟩
  have h0 : bump x 0 0 = x := by funext j; unfold bump; by_cases h : j = 0 <;> simp [h]
  refine ⟨⟨h0 ▸ (key 0 0 (by omega)).1, fun i _ => ⟨(key i 1 (by omega)).1, (key i (-1) (by omega)).1⟩⟩,
    h0 ▸ (key 0 0 (by omega)).2, fun i _ => ⟨(key i 1 (by omega)).2, (key i (-1) (by omega)).2⟩⟩

/-- Nodes at least one node away from every face are unmoved, in both builds. -/
theorem unmoved_interior (bd : Build) {g : Shape} (hg : g.Wf) {x : Nat → Int}
    (hx : ∀ j < g.dim, g.x0 j < x j ∧ x j + 1 < g.x1 j) : Unmoved bd g x := by
  intro j hj k hk
  have h := hx j hj
  have := hg.ghosts
  refine ⟨checkBoundary_inside _ _ _ _ _ _ (by unfold OnAxis; omega), ?_, ?_⟩ <;> simp only [Shape.s0, Shape.s1] <;> omega

/-- Value of a polynomial at the physical position `dx i * x i` of coordinate `x`. -/
noncomputable def sample (dx : Nat → K) (p : MvPolynomial Nat K) (x : Nat → Int) : K :=
  MvPolynomial.eval (fun i => dx i * (x i : K)) p

theorem monomial_axis (r : Nat → K) (i : Nat) (t : K) (s : Nat →₀ Nat) (a : K) :
    MvPolynomial.eval (Function.update r i t) (MvPolynomial.monomial s a) =
      a * ((s.erase i).prod fun j k => r j ^ k) * t ^ s i := by
  rw [MvPolynomial.eval_monomial, mul_assoc]
  congr 1
  rw [← Finsupp.mul_prod_erase' s i _ (fun _ => pow_zero _), Function.update_self, mul_comm]
  congr 1
  refine Finsupp.prod_congr fun j hj => ?_
  have : j ≠ i := by rintro rfl; simp at hj
  rw [Function.update_of_ne this]

theorem bump_sample (dx : Nat → K) (p : MvPolynomial Nat K) (x : Nat → Int) (i : Nat) (k : Int) :
    sample dx p (bump x i k) =
      MvPolynomial.eval (Function.update (fun i => dx i * (x i : K)) i (dx i * (x i : K) + k * dx i)) p := by
  unfold sample
  congr 2
  funext j
  by_cases e : j = i
  · subst e; simp only [bump, Function.update_self]; push_cast; ring
  · simp only [bump, Function.update_of_ne e]

theorem erase_sub (s : Nat →₀ Nat) (i : Nat) : (s - Finsupp.single i 1).erase i = s.erase i := by
  ext j
  by_cases e : j = i
  · subst e; simp
  · simp [Finsupp.erase_ne e, Ne.symm e]

theorem eval_update_self (r : Nat → K) (i : Nat) (p : MvPolynomial Nat K) :
    MvPolynomial.eval r p = MvPolynomial.eval (Function.update r i (r i)) p := by rw [Function.update_eq_self]

/-- Second difference of a polynomial of degree at most three in the variable of the axis. -/
theorem second_difference (dx : Nat → K) (p : MvPolynomial Nat K) (x : Nat → Int) (i : Nat)
    (hp : MvPolynomial.degreeOf i p ≤ 3) :
    sample dx p (bump x i 1) - 2 * sample dx p x + sample dx p (bump x i (-1)) =
      dx i ^ 2 * sample dx (MvPolynomial.pderiv i (MvPolynomial.pderiv i p)) x := by
  rw [bump_sample, bump_sample]
  unfold sample
  set r : Nat → K := fun i => dx i * (x i : K) with hr
  have hri : dx i * (x i : K) = r i := rfl
  rw [hri]
  have hmono : ∀ s ∈ p.support, ∀ a : K,
      MvPolynomial.eval (Function.update r i (r i + ((1 : Int) : K) * dx i)) (MvPolynomial.monomial s a) -
        2 * MvPolynomial.eval r (MvPolynomial.monomial s a) +
        MvPolynomial.eval (Function.update r i (r i + ((-1 : Int) : K) * dx i)) (MvPolynomial.monomial s a) =
      dx i ^ 2 * MvPolynomial.eval r (MvPolynomial.pderiv i (MvPolynomial.pderiv i (MvPolynomial.monomial s a))) := by
    intro s hs a
    have hd : s i ≤ 3 := (MvPolynomial.degreeOf_le_iff.mp hp) s hs
    rw [MvPolynomial.pderiv_monomial, MvPolynomial.pderiv_monomial, eval_update_self r i (MvPolynomial.monomial s a),
      eval_update_self r i (MvPolynomial.monomial _ _), monomial_axis, monomial_axis, monomial_axis, monomial_axis,
      erase_sub, erase_sub]
    simp only [Finsupp.coe_tsub, Pi.sub_apply, Finsupp.single_eq_same]
    rcases (by omega : s i = 0 ∨ s i = 1 ∨ s i = 2 ∨ s i = 3) with h | h | h | h <;> rw [h] <;> push_cast <;> ring
  conv_lhs => rw [← MvPolynomial.support_sum_monomial_coeff p]
  conv_rhs => rw [← MvPolynomial.support_sum_monomial_coeff p]
  simp only [map_sum]
  rw [Finset.mul_sum, Finset.mul_sum, ← Finset.sum_sub_distrib, ← Finset.sum_add_distrib]
  exact Finset.sum_congr rfl fun s hs => hmono s hs _

/-- Central difference of a polynomial of degree at most two in the variable of the axis. -/
theorem central_difference (dx : Nat → K) (p : MvPolynomial Nat K) (x : Nat → Int) (i : Nat)
    (hp : MvPolynomial.degreeOf i p ≤ 2) :
    sample dx p (bump x i 1) - sample dx p (bump x i (-1)) = 2 * dx i * sample dx (MvPolynomial.pderiv i p) x := by
  rw [bump_sample, bump_sample]
  unfold sample
  set r : Nat → K := fun i => dx i * (x i : K) with hr
  have hri : dx i * (x i : K) = r i := rfl
  rw [hri]
  have hmono : ∀ s ∈ p.support, ∀ a : K,
      MvPolynomial.eval (Function.update r i (r i + ((1 : Int) : K) * dx i)) (MvPolynomial.monomial s a) -
        MvPolynomial.eval (Function.update r i (r i + ((-1 : Int) : K) * dx i)) (MvPolynomial.monomial s a) =
      2 * dx i * MvPolynomial.eval r (MvPolynomial.pderiv i (MvPolynomial.monomial s a)) := by
    intro s hs a
    have hd : s i ≤ 2 := (MvPolynomial.degreeOf_le_iff.mp hp) s hs
    rw [MvPolynomial.pderiv_monomial, eval_update_self r i (MvPolynomial.monomial _ _), monomial_axis, monomial_axis,
      monomial_axis, erase_sub]
    simp only [Finsupp.coe_tsub, Pi.sub_apply, Finsupp.single_eq_same]
    rcases (by omega : s i = 0 ∨ s i = 1 ∨ s i = 2) with h | h | h <;> rw [h] <;> push_cast <;> ring
  conv_lhs => rw [← MvPolynomial.support_sum_monomial_coeff p]
  conv_rhs => rw [← MvPolynomial.support_sum_monomial_coeff p]
  simp only [map_sum]
  rw [Finset.mul_sum, ← Finset.sum_sub_distrib]
  exact Finset.sum_congr rfl fun s hs => hmono s hs _

/-- **C28.** On samples of a polynomial of degree at most three in each coordinate, `laplacian` is the exact Laplacian
`∑ ∂²p/∂xᵢ²` at the physical position, for every non-zero spacing. -/
theorem laplacian_exact (bd : Build) {g : Shape} (hg : g.Wf) (dx : Nat → K) (hdx : ∀ i < g.dim, dx i ≠ 0) (data : Int → K)
    (p : MvPolynomial Nat K) (hs : Samples g data (sample dx p)) (hp : ∀ i < g.dim, MvPolynomial.degreeOf i p ≤ 3)
    (x : Nat → Int) (hx : Unmoved bd g x) :
    laplacian bd g dx data x =
      .ok (∑ i ∈ range g.dim, sample dx (MvPolynomial.pderiv i (MvPolynomial.pderiv i p)) x) := by
  obtain ⟨hr, h0, h1⟩ := unmoved_view bd hg hx hs
  rw [laplacian_eq bd dx data x hr]
  congr 1
  refine Finset.sum_congr rfl fun i hi => ?_
  have hi := Finset.mem_range.mp hi
  rw [h0, (h1 i hi).1, (h1 i hi).2, second_difference dx p x i (hp i hi), mul_comm,
    mul_div_assoc, div_self (pow_ne_zero 2 (hdx i hi)), mul_one]

/-- **C28.** On samples of a polynomial of degree at most two in each coordinate, `gradient` is the exact gradient. -/
theorem gradient_exact (bd : Build) {g : Shape} (hg : g.Wf) (h2 : (2 : K) ≠ 0) (dx : Nat → K) (hdx : ∀ i < g.dim, dx i ≠ 0)
    (init : List K) (hi : init.length = g.dim) (data : Int → K) (p : MvPolynomial Nat K)
    (hs : Samples g data (sample dx p)) (hp : ∀ i < g.dim, MvPolynomial.degreeOf i p ≤ 2) (x : Nat → Int)
    (hx : Unmoved bd g x) :
    gradient bd g dx init data x = .ok ((List.range g.dim).map fun i => sample dx (MvPolynomial.pderiv i p) x) := by
  obtain ⟨hr, h0, h1⟩ := unmoved_view bd hg hx hs
  rw [gradient_eq' bd dx init hi data x hr]
  congr 1
  refine List.map_congr_left fun i hi => ?_
  have hi := List.mem_range.mp hi
  rw [(h1 i hi).1, (h1 i hi).2, central_difference dx p x i (hp i hi), mul_comm, mul_div_assoc,
    div_self (mul_ne_zero h2 (hdx i hi)), mul_one]

/-- **C28.** `divergence` of a scalar field is the sum of the partial derivatives on such polynomials. -/
theorem divergence_exact (bd : Build) {g : Shape} (hg : g.Wf) (h2 : (2 : K) ≠ 0) (dx : Nat → K)
    (hdx : ∀ i < g.dim, dx i ≠ 0) (data : Int → K) (p : MvPolynomial Nat K)
    (hs : Samples g data (sample dx p)) (hp : ∀ i < g.dim, MvPolynomial.degreeOf i p ≤ 2) (x : Nat → Int)
    (hx : Unmoved bd g x) :
    divergence bd g dx data x = .ok (∑ i ∈ range g.dim, sample dx (MvPolynomial.pderiv i p) x) := by
  obtain ⟨hr, h0, h1⟩ := unmoved_view bd hg hx hs
  rw [divergence_eq bd dx data x hr]
  congr 1
  refine Finset.sum_congr rfl fun i hi => ?_
  have hi := Finset.mem_range.mp hi
  rw [(h1 i hi).1, (h1 i hi).2, central_difference dx p x i (hp i hi), mul_comm, mul_div_assoc,
    div_self (mul_ne_zero h2 (hdx i hi)), mul_one]

/-! ## Sparse fields -/

theorem lapSparseLoop_field {at' : (Nat → Int) → Outcome (Sparse.Cell K)} (hat : ∀ s c, at' s = .ok c → Sparse.Ok c)
    {w : Nat → K} {y : Sparse.Cell K} (hy : Sparse.Ok y) {s : Nat → Int} (k : Int) :
    ∀ {is : List Nat} {acc L : Sparse.Cell K}, Sparse.Ok acc → lapSparseLoop at' w y is s acc = .ok L →
      Sparse.Ok L ∧ lapLoop (fun s => (at' s).bind fun c => .ok (Sparse.get c k)) w (Sparse.get y k) is s
        (Sparse.get acc k) = .ok (Sparse.get L k) := by
  intro is
  induction is with
  | nil =>
    intro acc L ha h
    simp only [lapSparseLoop, Outcome.ok.injEq] at h; subst h
    exact ⟨ha, rfl⟩
  | cons i is ih =>
    intro acc L ha h
    simp only [lapSparseLoop, neighbours_eq] at h
    cases h1 : at' (bump s i 1) with
    | ub => simp [h1] at h
    | abort _ => simp [h1] at h
    | ok yh =>
      cases h2 : at' (bump s i (-1)) with
      | ub => simp [h1, h2] at h
      | abort _ => simp [h1, h2] at h
      | ok yl =>
        simp only [h1, h2, Outcome.ok_bind] at h
        obtain ⟨a1, a2, -⟩ := Sparse.smul_correct (1 + 1 : K) hy
        obtain ⟨b1, b2, -⟩ := Sparse.sub_correct (fun a : K => sub_zero a) (hat _ _ h1) a2
        obtain ⟨c1, c2, -⟩ := Sparse.add_correct b2 (hat _ _ h2)
        obtain ⟨d1, d2, -⟩ := Sparse.smul_correct (w i) c2
        obtain ⟨e1, e2, -⟩ := Sparse.addEq_correct ha d2
        obtain ⟨l1, l2⟩ := ih e2 h
        refine ⟨l1, ?_⟩
        simp only [lapLoop, neighbours_eq, h1, h2, Outcome.ok_bind]
        rw [← l2, e1 k, d1 k, c1 k, b1 k, a1 k]

/-- **C28.** The Laplacian of a grid of sparse cells is, index by index, the scalar Laplacian of that index's field, and its
result lists no index twice. -/
theorem laplacianSparse_correct (bd : Build) {g : Shape} (dx : Nat → K) (data : Int → Sparse.Cell K)
    (hd : ∀ p, Sparse.Ok (data p)) (x : Nat → Int) (hr : InReach bd g x) :
    ∃ c, laplacianSparse bd g dx data x = .ok c ∧ Sparse.Ok c ∧
      ∀ k, laplacian bd g dx (fun p => Sparse.get (data p) k) x = .ok (Sparse.get c k) := by
  obtain ⟨h0, h⟩ := hr
  have total : ∀ (is : List Nat) (acc : Sparse.Cell K), (∀ i ∈ is, i < g.dim) →
      ∃ c, lapSparseLoop (gridAt bd g data) (fun i => lapWeight (dx i)) (view bd g data x) is x acc = .ok c := by
    intro is
    induction is with
    | nil => intro acc _; exact ⟨acc, rfl⟩
    | cons i is ih =>
      intro acc hi
      obtain ⟨a, b⟩ := h i (hi i (by simp))
      simp only [lapSparseLoop, neighbours_eq, gridAt_ok a, gridAt_ok b, Outcome.ok_bind]
      exact ih _ (fun j hj => hi j (by simp [hj]))
  obtain ⟨c, hc⟩ := total (List.range g.dim) [] (fun i hi => List.mem_range.mp hi)
  have hat : ∀ s c, gridAt bd g data s = .ok c → Sparse.Ok c := by
    intro s c hs
    by_cases ht : Touches bd g s
    · rw [gridAt_ok ht, Outcome.ok.injEq] at hs; rw [← hs]; exact hd _
    · rw [gridAt_ub ht] at hs; cases hs
  have hnil : Sparse.Ok ([] : Sparse.Cell K) := by simp [Sparse.Ok, Sparse.keys]
  refine ⟨c, by simp only [laplacianSparse, gridAt_ok h0, Outcome.ok_bind, hc],
    (lapSparseLoop_field hat (hd _) 0 hnil hc).1, fun k => ?_⟩
  have := (lapSparseLoop_field hat (hd _) k hnil hc).2
  rw [← this]
  unfold laplacian
  rw [gridAt_ok h0, Outcome.ok_bind]
  have hk : ∀ i < g.dim, ∀ t : Int, (t = 1 ∨ t = -1) →
      gridAt bd g (fun p => Sparse.get (data p) k) (bump x i t) =
        .ok (view bd g (fun p => Sparse.get (data p) k) (bump x i t)) ∧
      ((gridAt bd g data (bump x i t)).bind fun c => .ok (Sparse.get c k)) =
        .ok (view bd g (fun p => Sparse.get (data p) k) (bump x i t)) := by
    intro i hi t ht
    have htt : Touches bd g (bump x i t) := by
      rcases ht with rfl | rfl
      · exact (h i hi).1
      · exact (h i hi).2
    exact ⟨gridAt_ok htt _, by rw [gridAt_ok htt]; rfl⟩
  rw [lapLoop_eq (F := view bd g fun p => Sparse.get (data p) k),
    lapLoop_eq (at' := fun s => (gridAt bd g data s).bind fun c => .ok (Sparse.get c k))
      (F := view bd g fun p => Sparse.get (data p) k)]
  · rfl
  · intro i hi
    exact ⟨(hk i (List.mem_range.mp hi) 1 (Or.inl rfl)).2, (hk i (List.mem_range.mp hi) (-1) (Or.inr rfl)).2⟩
  · intro i hi
    exact ⟨(hk i (List.mem_range.mp hi) 1 (Or.inl rfl)).1, (hk i (List.mem_range.mp hi) (-1) (Or.inr rfl)).1⟩

/-! ## Divergence of a vector field -/

theorem divFields_range {w : K} {yh yl : List K} : ∀ (k n : Nat) (acc : List K), n + k ≤ yh.length → n + k ≤ yl.length →
    n + k ≤ acc.length →
    divFields w yh yl (List.range' n k) acc = .ok ((List.range acc.length).map fun j =>
      acc.getD j 0 + if n ≤ j ∧ j < n + k then w * (yh.getD j 0 - yl.getD j 0) else 0) := by
  intro k
  induction k with
  | zero =>
    intro n acc _ _ _
    simp only [List.range'_zero, divFields, Outcome.ok.injEq]
    apply List.ext_getElem (by simp)
    intro j h1 h2
    simp [h1]
  | succ k ih =>
    intro n acc h1 h2 h3
    simp only [List.range'_succ, divFields, elem, List.getElem?_eq_getElem (by omega : n < acc.length),
      List.getElem?_eq_getElem (by omega : n < yh.length), List.getElem?_eq_getElem (by omega : n < yl.length),
      Outcome.ok_bind]
    rw [ih (n + 1) _ (by omega) (by omega) (by simp; omega)]
    simp only [List.length_set, Outcome.ok.injEq]
    refine List.map_congr_left fun j hj => ?_
    have hj := List.mem_range.mp hj
    by_cases e : j = n
    · subst e
      have e1 : ¬ (j + 1 ≤ j ∧ j < j + 1 + k) := by omega
      have e2 : j ≤ j ∧ j < j + (k + 1) := by omega
      rw [if_neg e1, if_pos e2]
      simp [List.getD_eq_getElem?_getD, hj, (by omega : j < yh.length), (by omega : j < yl.length)]
    · have e1 : (n + 1 ≤ j ∧ j < n + 1 + k) ↔ (n ≤ j ∧ j < n + (k + 1)) := by omega
      simp only [e1]
      simp [List.getD_eq_getElem?_getD, Ne.symm e]

theorem divFields_over {w : K} {yh yl : List K} : ∀ (k n : Nat) (acc : List K), acc.length < n + k → n ≤ acc.length →
    n + k ≤ yh.length → n + k ≤ yl.length → divFields w yh yl (List.range' n k) acc = .abort 134 := by
  intro k
  induction k with
  | zero => intro n acc h1 h2; omega
  | succ k ih =>
    intro n acc h1 h2 h3 h4
    simp only [List.range'_succ, divFields]
    by_cases e : n < acc.length
    · simp only [elem, List.getElem?_eq_getElem e, List.getElem?_eq_getElem (by omega : n < yh.length),
        List.getElem?_eq_getElem (by omega : n < yl.length), Outcome.ok_bind]
      exact ih (n + 1) _ (by simp; omega) (by simp; omega) (by omega) (by omega)
    · simp [elem, List.getElem?_eq_none (by omega : acc.length ≤ n)]

theorem divVecLoop_eq {at' : (Nat → Int) → Outcome (List K)} {F : (Nat → Int) → List K} (dx : Nat → K) (n d : Nat)
    (hn : n ≤ d) (s : Nat → Int) : ∀ (is : List Nat) (a : Nat → K),
      (∀ i ∈ is, at' (bump s i 1) = .ok (F (bump s i 1)) ∧ at' (bump s i (-1)) = .ok (F (bump s i (-1))) ∧
        n ≤ (F (bump s i 1)).length ∧ n ≤ (F (bump s i (-1))).length) →
      divVecLoop at' dx n is s ((List.range d).map a) = .ok ((List.range d).map fun j => a j +
        if j < n then (is.map fun i => gradWeight (dx i) *
          ((F (bump s i 1)).getD j 0 - (F (bump s i (-1))).getD j 0)).sum else 0) := by
  intro is
  induction is with
  | nil => intro a _; simp [divVecLoop]
  | cons i is ih =>
    intro a h
    obtain ⟨h1, h2, h3, h4⟩ := h i (by simp)
    simp only [divVecLoop, neighbours_eq, h1, h2, Outcome.ok_bind]
    rw [List.range_eq_range' (n := n), divFields_range n 0 _ (by omega) (by omega) (by simpa using hn), Outcome.ok_bind]
    simp only [List.length_map, List.length_range]
    have hfun : ((List.range d).map fun j => ((List.range d).map a).getD j 0 +
        if 0 ≤ j ∧ j < 0 + n then gradWeight (dx i) * ((F (bump s i 1)).getD j 0 - (F (bump s i (-1))).getD j 0) else 0) =
        (List.range d).map fun j => a j +
          if j < n then gradWeight (dx i) * ((F (bump s i 1)).getD j 0 - (F (bump s i (-1))).getD j 0) else 0 := by
      refine List.map_congr_left fun j hj => ?_
      have hj := List.mem_range.mp hj
      simp [List.getD_eq_getElem?_getD, hj]
    rw [hfun, ih _ (fun j hj => h j (by simp [hj]))]
    congr 1
    refine List.map_congr_left fun j _ => ?_
    by_cases e : j < n
    · simp only [if_pos e, List.map_cons, List.sum_cons]; ring
    · simp [e]

/-- **C28.** `divergence` of a grid of vectors with at most `dim` entries: the result has `dim` entries, and entry `j` is the
scalar `divergence` of field `j`, that is `∑ᵢ ∂vⱼ/∂xᵢ` - not the mathematical divergence `∑ᵢ ∂vᵢ/∂xᵢ`. -/
theorem divergenceVec_eq (bd : Build) {g : Shape} (dx : Nat → K) (data : Int → List K) (x : Nat → Int)
    (hr : InReach bd g x) (n : Nat) (hn : n ≤ g.dim) (hd : ∀ p, 0 ≤ p → p < g.cells → (data p).length = n) :
    ∃ L, divergenceVec bd g dx data x = .ok L ∧ L.length = g.dim ∧
      (∀ j < n, ∃ l, L[j]? = some l ∧ divergence bd g dx (fun p => (data p).getD j 0) x = .ok l) ∧
      ∀ j, n ≤ j → j < g.dim → L[j]? = some 0 := by
  obtain ⟨h0, h⟩ := hr
  have hy : (view bd g data x).length = n := hd _ h0.1 h0.2
  have hrep : List.replicate g.dim (0 : K) = (List.range g.dim).map fun _ => 0 := by
    rw [eq_comm, List.eq_replicate_iff]; simp
  have e : divergenceVec bd g dx data x = .ok ((List.range g.dim).map fun j => 0 +
        if j < n then ((List.range g.dim).map fun i => gradWeight (dx i) *
          ((view bd g data (bump x i 1)).getD j 0 - (view bd g data (bump x i (-1))).getD j 0)).sum else 0) := by
    simp only [divergenceVec, gridAt_ok h0, Outcome.ok_bind, hy, hrep]
    refine divVecLoop_eq (F := view bd g data) dx n g.dim hn x (List.range g.dim) (fun _ => 0) fun i hi => ?_
    obtain ⟨a, b⟩ := h i (List.mem_range.mp hi)
    exact ⟨gridAt_ok a _, gridAt_ok b _, (hd _ a.1 a.2).ge, (hd _ b.1 b.2).ge⟩
  refine ⟨_, e, by simp, fun j hj => ⟨_, List.getElem?_eq_getElem (by simp; omega), ?_⟩, fun j hj hjd => ?_⟩
  · unfold divergence
    rw [divLoop_eq (F := view bd g fun p => (data p).getD j 0) _ _ _ _ (fun i hi => ⟨gridAt_ok (h i (List.mem_range.mp hi)).1 _,
      gridAt_ok (h i (List.mem_range.mp hi)).2 _⟩), foldl_sum]
    simp [hj, view]
  · have : ¬ j < n := by omega
    simp [this, hjd]

/-- **C49 (negative).** On a grid whose vectors have more entries than the grid has dimensions, `divergence` stops at the
bounds assertion (or, without assertions, writes outside the result). -/
theorem divergenceVec_overruns (bd : Build) {g : Shape} (hdim : 0 < g.dim) (dx : Nat → K) (data : Int → List K)
    (x : Nat → Int) (hr : InReach bd g x) (n : Nat) (hn : g.dim < n) (hd : ∀ p, 0 ≤ p → p < g.cells → (data p).length = n) :
    divergenceVec bd g dx data x = .abort 134 := by
  obtain ⟨h0, h⟩ := hr
  obtain ⟨m, hm⟩ : ∃ m, g.dim = m + 1 := ⟨g.dim - 1, by omega⟩
  obtain ⟨a, b⟩ := h 0 hdim
  have hr' : List.range g.dim = 0 :: (List.range m).map Nat.succ := by rw [hm, List.range_succ_eq_map]
  simp only [divergenceVec, gridAt_ok h0, Outcome.ok_bind]
  rw [hr']
  simp only [divVecLoop, neighbours_eq, gridAt_ok a, gridAt_ok b, Outcome.ok_bind]
  rw [List.range_eq_range', divFields_over]
  · rfl
  · simp only [List.length_replicate, view]; rw [hd _ h0.1 h0.2]; omega
  · simp
  · simp only [view]; rw [hd _ h0.1 h0.2, hd _ a.1 a.2]; omega
  · simp only [view]; rw [hd _ h0.1 h0.2, hd _ b.1 b.2]; omega

end MMSP.Stencil
