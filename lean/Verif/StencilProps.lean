import Verif.Stencil
import Verif.IndexProps
import Verif.SparseProps
import Mathlib.Algebra.MvPolynomial.PDeriv
import Mathlib.Tactic.Ring
import Mathlib.Tactic.FieldSimp
import Mathlib.Tactic.LinearCombination
/-!
# Finite-difference stencils: theorems

Specification vocabulary: `InReach` (the cell at `x` and its `2·dim` axis neighbours are cells of the local array),
`view` (the field value the grid shows at a coordinate, after boundary handling), and mathematical sums and
derivatives.
-/

namespace MMSP.Stencil

open Finset

set_option linter.unusedSectionVars false

variable {V T : Type}

/-! ## Control flow: what is read, and when the calls return -/

theorem bump_back (s : Nat → Int) (i : Nat) : bump (bump s i 1) i (-2) = bump s i (-1) := by
  funext j; unfold bump; by_cases h : j = i
  · subst h; simp; omega
  · simp [h]

theorem bump_home (s : Nat → Int) (i : Nat) : bump (bump s i (-1)) i 1 = s := by
  funext j; unfold bump; by_cases h : j = i
  · subst h; simp
  · simp [h]

theorem neighbours_eq (at' : (Nat → Int) → Outcome V) (s : Nat → Int) (i : Nat) :
    neighbours at' s i =
      (at' (bump s i 1)).bind fun yh => (at' (bump s i (-1))).bind fun yl => .ok (yh, yl, s) := by
  simp only [neighbours, bump_back, bump_home]

/-- The access `GRID(x)` touches an element of the local array. -/
def Touches (bd : Build) (g : Shape) (x : Nat → Int) : Prop := 0 ≤ g.atVec bd x ∧ g.atVec bd x < g.cells

/-- The stencil at `x` stays inside the local array. -/
def InReach (bd : Build) (g : Shape) (x : Nat → Int) : Prop :=
  Touches bd g x ∧ ∀ i < g.dim, Touches bd g (bump x i 1) ∧ Touches bd g (bump x i (-1))

/-- The value the grid shows at coordinate `x`. -/
def view (bd : Build) (g : Shape) (data : Int → V) (x : Nat → Int) : V := data (g.atVec bd x)

theorem gridAt_ok {bd : Build} {g : Shape} {x : Nat → Int} (h : Touches bd g x) (data : Int → V) :
    gridAt bd g data x = .ok (view bd g data x) := by
  unfold gridAt deref view; exact if_pos h

theorem gridAt_ub {bd : Build} {g : Shape} {x : Nat → Int} (h : ¬ Touches bd g x) (data : Int → V) :
    gridAt bd g data x = .ub := by
  unfold gridAt deref; exact if_neg h

/-- Serial grids: every node has its stencil inside the array for every boundary condition except the parallel flag (which
serial grids never have) and except a mirror axis of length one. -/
theorem inReach_serial {g : Shape} (hg : g.Wf) {x : Nat → Int} (hx : g.IsNode x)
    (hpar : ∀ j, j < g.dim → g.b0 j ≠ .parallel ∧ g.b1 j ≠ .parallel)
    (hm : ∀ j, j < g.dim → g.b0 j = .mirror ∨ g.b1 j = .mirror → 2 ≤ g.x1 j - g.x0 j) : InReach .serial g x := by
  have key : ∀ (i : Nat) (k : Int), (k = 1 ∨ k = 0 ∨ k = -1) → Touches .serial g (bump x i k) := by
    intro i k hk
    apply Shape.serial_access_in_bounds hg hpar
    intro j hj hout
    have hn := hx j hj
    have hs := hg.side j hj
    by_cases e : j = i
    · subst e
      simp only [bump, Function.update_self] at hout ⊢
      unfold OnAxis at hout
      have hmj := hm j hj
      unfold sideOf outBy
      split_ifs with h1
      · cases h : g.b0 j <;> simp only [h, Reach] at hmj ⊢ <;> first | trivial | omega | (have := hmj (Or.inl trivial); omega)
      · cases h : g.b1 j <;> simp only [h, Reach] at hmj ⊢ <;> first | trivial | omega | (have := hmj (Or.inr trivial); omega)
    · exact absurd (by simpa [bump, e, OnAxis] using hn) hout
  refine ⟨?_, fun i _ => ⟨key i 1 (by omega), key i (-1) (by omega)⟩⟩
  have h0 := key 0 0 (by omega)
  have : bump x 0 0 = x := by funext j; unfold bump; by_cases h : j = 0 <;> simp [h]
  rwa [this] at h0

/-- Parallel grids: with at least one ghost layer every node has its stencil inside the array. -/
theorem inReach_mpi {g : Shape} (hg : g.Wf) {x : Nat → Int} (hx : g.IsNode x) (hgh : 1 ≤ g.ghosts)
    (hm : ∀ j, j < g.dim → g.b0 j = .mirror ∨ g.b1 j = .mirror → g.ghosts < g.x1 j - g.x0 j) : InReach .mpi g x := by
  have key : ∀ (i : Nat) (k : Int), (k = 1 ∨ k = 0 ∨ k = -1) → Touches .mpi g (bump x i k) := by
    intro i k hk
    apply Shape.mpi_access_in_bounds hg _ hm
    intro j hj
    have hn := hx j hj
    by_cases e : j = i
    · subst e; simp only [bump, Function.update_self]; omega
    · simp only [bump, Function.update_of_ne e]; omega
  refine ⟨?_, fun i _ => ⟨key i 1 (by omega), key i (-1) (by omega)⟩⟩
  have h0 := key 0 0 (by omega)
  have : bump x 0 0 = x := by funext j; unfold bump; by_cases h : j = 0 <;> simp [h]
  rwa [this] at h0

section Raw
variable [Zero T] [One T] [Add T] [Sub T] [Mul T] [Div T]

/-- A stencil loop reads exactly the neighbours along the listed axes. -/
theorem lapLoop_eq {at' : (Nat → Int) → Outcome T} {F : (Nat → Int) → T} (w : Nat → T) (y : T) (s : Nat → Int) :
    ∀ (is : List Nat) (acc : T),
      (∀ i ∈ is, at' (bump s i 1) = .ok (F (bump s i 1)) ∧ at' (bump s i (-1)) = .ok (F (bump s i (-1)))) →
      lapLoop at' w y is s acc =
        .ok (is.foldl (fun a i => a + w i * (F (bump s i 1) - (1 + 1) * y + F (bump s i (-1)))) acc) := by
  intro is
  induction is with
  | nil => intro acc _; rfl
  | cons i is ih =>
    intro acc h
    obtain ⟨h1, h2⟩ := h i (by simp)
    simp only [lapLoop, neighbours_eq, h1, h2, Outcome.ok_bind, List.foldl_cons]
    exact ih _ (fun j hj => h j (by simp [hj]))

theorem lapLoop_reads {bd : Build} {g : Shape} {data : Int → T} {w : Nat → T} {y : T} {s : Nat → Int} :
    ∀ {is : List Nat} {acc v : T}, lapLoop (gridAt bd g data) w y is s acc = .ok v →
      ∀ i ∈ is, Touches bd g (bump s i 1) ∧ Touches bd g (bump s i (-1)) := by
  intro is
  induction is with
  | nil => intro acc v _ i hi; simp at hi
  | cons j is ih =>
    intro acc v h i hi
    simp only [lapLoop, neighbours_eq] at h
    by_cases h1 : Touches bd g (bump s j 1)
    · by_cases h2 : Touches bd g (bump s j (-1))
      · simp only [gridAt_ok h1, gridAt_ok h2, Outcome.ok_bind] at h
        rcases List.mem_cons.mp hi with rfl | hi
        · exact ⟨h1, h2⟩
        · exact ih h i hi
      · simp [gridAt_ok h1, gridAt_ub h2] at h
    · simp [gridAt_ub h1] at h

/-- **C28.** `laplacian(GRID, x)` returns exactly when the whole stencil lies in the local array; otherwise memory outside
the array is read. -/
theorem laplacian_returns_iff (bd : Build) (g : Shape) (dx : Nat → T) (data : Int → T) (x : Nat → Int) :
    (∃ v, laplacian bd g dx data x = .ok v) ↔ InReach bd g x := by
  constructor
  · rintro ⟨v, h⟩
    unfold laplacian at h
    by_cases h0 : Touches bd g x
    · rw [gridAt_ok h0, Outcome.ok_bind] at h
      exact ⟨h0, fun i hi => lapLoop_reads h i (List.mem_range.mpr hi)⟩
    · simp [gridAt_ub h0] at h
  · rintro ⟨h0, h⟩
    unfold laplacian
    rw [gridAt_ok h0, Outcome.ok_bind]
    exact ⟨_, lapLoop_eq (F := view bd g data) _ _ _ _ _
      (fun i hi => ⟨gridAt_ok (h i (List.mem_range.mp hi)).1 _, gridAt_ok (h i (List.mem_range.mp hi)).2 _⟩)⟩

/-! ### Grids of vectors, arbitrary arithmetic -/

theorem elem_ok {v : List V} {j : Nat} {a : V} : elem v j = .ok a ↔ v[j]? = some a := by
  unfold elem; cases h : v[j]? <;> simp

theorem elem_cases (v : List V) (j : Nat) : (∃ a, elem v j = .ok a ∧ v[j]? = some a) ∨ elem v j = .abort 134 := by
  unfold elem; cases h : v[j]? <;> simp

theorem lapFields_ok {w : T} {y yh yl : List T} : ∀ {js : List Nat} {acc acc' : List T}, js.Nodup →
    lapFields w y yh yl js acc = .ok acc' →
    ∀ j, (j ∉ js → acc'[j]? = acc[j]?) ∧
      (j ∈ js → ∃ a ah a0 al, acc[j]? = some a ∧ yh[j]? = some ah ∧ y[j]? = some a0 ∧ yl[j]? = some al ∧
        acc'[j]? = some (a + w * (ah - (1 + 1) * a0 + al))) := by
  intro js
  induction js with
  | nil => intro acc acc' _ h j; simp only [lapFields, Outcome.ok.injEq] at h; subst h; simp
  | cons k js ih =>
    intro acc acc' hn h j
    obtain ⟨hk, hn⟩ := List.nodup_cons.mp hn
    simp only [lapFields] at h
    rcases elem_cases acc k with ⟨a, ea, ga⟩ | e
    swap
    · simp [e] at h
    rcases elem_cases yh k with ⟨ah, eh, gh⟩ | e
    swap
    · simp [ea, e] at h
    rcases elem_cases y k with ⟨a0, e0, g0⟩ | e
    swap
    · simp [ea, eh, e] at h
    rcases elem_cases yl k with ⟨al, el, gl⟩ | e
    swap
    · simp [ea, eh, e0, e] at h
    simp only [ea, eh, e0, el, Outcome.ok_bind] at h
    have hi := ih hn h j
    have hlen : k < acc.length := by
      rcases Nat.lt_or_ge k acc.length with h' | h'
      · exact h'
      · rw [List.getElem?_eq_none h'] at ga; cases ga
    by_cases hjk : j = k
    · subst hjk
      refine ⟨fun hc => absurd (List.mem_cons_self ..) hc, fun _ => ⟨a, ah, a0, al, ga, gh, g0, gl, ?_⟩⟩
      rw [hi.1 hk]
      simp [hlen]
    · have hset : ∀ z, (acc.set k z)[j]? = acc[j]? := fun z => by simp [Ne.symm hjk]
      rw [hset] at hi
      refine ⟨fun hc => hi.1 (fun hm => hc (List.mem_cons_of_mem _ hm)), fun hm => ?_⟩
      rcases List.mem_cons.mp hm with h' | h'
      · exact absurd h' hjk
      · exact hi.2 h'

theorem lapFields_total {w : T} {y yh yl : List T} : ∀ (js : List Nat) (acc : List T),
    (∀ j ∈ js, j < acc.length ∧ j < yh.length ∧ j < y.length ∧ j < yl.length) →
    ∃ acc', lapFields w y yh yl js acc = .ok acc' ∧ acc'.length = acc.length := by
  intro js
  induction js with
  | nil => intro acc _; exact ⟨acc, rfl, rfl⟩
  | cons k js ih =>
    intro acc h
    obtain ⟨h1, h2, h3, h4⟩ := h k (by simp)
    obtain ⟨acc', e, hl⟩ := ih (acc.set k (acc[k] + w * (yh[k] - (1 + 1) * y[k] + yl[k])))
      (fun j hj => by simpa using h j (by simp [hj]))
    refine ⟨acc', ?_, by simpa using hl⟩
    simp only [lapFields, elem, List.getElem?_eq_getElem h1, List.getElem?_eq_getElem h2, List.getElem?_eq_getElem h3,
      List.getElem?_eq_getElem h4, Outcome.ok_bind, e]

theorem lapVecLoop_field {at' : (Nat → Int) → Outcome (List T)} {w : Nat → T} {n : Nat} {y : List T} {s : Nat → Int}
    {j : Nat} (hj : j < n) {y0 : T} (hy : y[j]? = some y0) :
    ∀ {is : List Nat} {acc L : List T} {a : T}, lapVecLoop at' w n y is s acc = .ok L → acc[j]? = some a →
      ∃ l, L[j]? = some l ∧ lapLoop (fun s => (at' s).bind fun v => elem v j) w y0 is s a = .ok l := by
  intro is
  induction is with
  | nil =>
    intro acc L a h ha
    simp only [lapVecLoop, Outcome.ok.injEq] at h; subst h
    exact ⟨a, ha, rfl⟩
  | cons i is ih =>
    intro acc L a h ha
    simp only [lapVecLoop, neighbours_eq] at h
    cases h1 : at' (bump s i 1) with
    | ub => simp [h1] at h
    | abort _ => simp [h1] at h
    | ok yh =>
      cases h2 : at' (bump s i (-1)) with
      | ub => simp [h1, h2] at h
      | abort _ => simp [h1, h2] at h
      | ok yl =>
        simp only [h1, h2, Outcome.ok_bind] at h
        cases h3 : lapFields (w i) y yh yl (List.range n) acc with
        | ub => simp [h3] at h
        | abort _ => simp [h3] at h
        | ok acc' =>
          simp only [h3, Outcome.ok_bind] at h
          obtain ⟨a', ah, a0, al, e1, e2, e3, e4, e5⟩ :=
            (lapFields_ok List.nodup_range h3 j).2 (List.mem_range.mpr hj)
          rw [ha] at e1; cases e1
          rw [hy] at e3; cases e3
          obtain ⟨l, l1, l2⟩ := ih h e5
          refine ⟨l, l1, ?_⟩
          simp only [lapLoop, neighbours_eq, h1, h2, Outcome.ok_bind, elem_ok.mpr e2, elem_ok.mpr e4]
          exact l2

/-- **C28.** The single-field version agrees with the corresponding entry of the vector version. This needs no law of
arithmetic (so it covers floating point) except that `pow(h, 2.0)` equals `h * h`. -/
theorem laplacianField_agrees (bd : Build) {g : Shape} (hd : 0 < g.dim) (n : Nat) (pow2 : T → T)
    (hp : ∀ h : T, pow2 h = h * h) (dx : Nat → T) (data : Int → List T) (x : Nat → Int) {L : List T}
    (h : laplacianVec bd g n dx data x = .ok L) {j : Nat} (hj : j < n) :
    ∃ l, L[j]? = some l ∧ laplacianField bd g pow2 dx data x j = .ok l := by
  unfold laplacianVec at h
  cases h0 : gridAt bd g data x with
  | ub => simp [h0] at h
  | abort _ => simp [h0] at h
  | ok y =>
    rw [h0, Outcome.ok_bind] at h
    have hw : (fun i => lapWeight (dx i)) = fun i => 1 / pow2 (dx i) := by funext i; simp [lapWeight, hp]
    have hy : ∃ y0, y[j]? = some y0 := by
      obtain ⟨m, hm⟩ : ∃ m, g.dim = m + 1 := ⟨g.dim - 1, by omega⟩
      rw [hm, List.range_succ_eq_map] at h
      simp only [lapVecLoop, neighbours_eq] at h
      cases h1 : gridAt bd g data (bump x 0 1) with
      | ub => simp [h1] at h
      | abort _ => simp [h1] at h
      | ok yh =>
        cases h2 : gridAt bd g data (bump x 0 (-1)) with
        | ub => simp [h1, h2] at h
        | abort _ => simp [h1, h2] at h
        | ok yl =>
          simp only [h1, h2, Outcome.ok_bind] at h
          cases h3 : lapFields (lapWeight (dx 0)) y yh yl (List.range n) (List.replicate n 0) with
          | ub => simp [h3] at h
          | abort _ => simp [h3] at h
          | ok acc' =>
            obtain ⟨a', ah, a0, al, e1, e2, e3, e4, e5⟩ :=
              (lapFields_ok List.nodup_range h3 j).2 (List.mem_range.mpr hj)
            exact ⟨a0, e3⟩
    obtain ⟨y0, hy⟩ := hy
    obtain ⟨l, l1, l2⟩ := lapVecLoop_field hj hy h (a := 0) (by simp [hj])
    refine ⟨l, l1, ?_⟩
    simp only [laplacianField, h0, Outcome.ok_bind, elem_ok.mpr hy]
    rw [← hw]; exact l2

theorem lapVecLoop_total {bd : Build} {g : Shape} {data : Int → List T} {w : Nat → T} {n : Nat} {y : List T}
    (hy : n ≤ y.length) (hd : ∀ p, 0 ≤ p → p < g.cells → n ≤ (data p).length) {s : Nat → Int} :
    ∀ (is : List Nat) (acc : List T), acc.length = n →
      (∀ i ∈ is, Touches bd g (bump s i 1) ∧ Touches bd g (bump s i (-1))) →
      ∃ L, lapVecLoop (gridAt bd g data) w n y is s acc = .ok L ∧ L.length = n := by
  intro is
  induction is with
  | nil => intro acc ha _; exact ⟨acc, rfl, ha⟩
  | cons i is ih =>
    intro acc ha h
    obtain ⟨h1, h2⟩ := h i (by simp)
    obtain ⟨acc', e1, e2⟩ := lapFields_total (w := w i) (y := y) (yh := view bd g data (bump s i 1))
      (yl := view bd g data (bump s i (-1))) (List.range n) acc (fun j hj => by
        have := List.mem_range.mp hj
        have k1 := hd _ h1.1 h1.2
        have k2 := hd _ h2.1 h2.2
        unfold view
        omega)
    obtain ⟨L, l1, l2⟩ := ih acc' (by omega) (fun j hj => h j (by simp [hj]))
    exact ⟨L, by simp only [lapVecLoop, neighbours_eq, gridAt_ok h1, gridAt_ok h2, Outcome.ok_bind, e1, l1], l2⟩

/-- **C28.** On a grid whose cells all have at least `fields(GRID)` entries, the vector version returns `fields(GRID)` entries, and entry `j`
is the scalar `laplacian` of field `j`. -/
theorem laplacianVec_correct (bd : Build) {g : Shape} (n : Nat) (dx : Nat → T) (data : Int → List T)
    (x : Nat → Int) (hr : InReach bd g x) (hd : ∀ p, 0 ≤ p → p < g.cells → n ≤ (data p).length) :
    ∃ L, laplacianVec bd g n dx data x = .ok L ∧ L.length = n ∧
      ∀ j < n, ∃ l, L[j]? = some l ∧ laplacian bd g dx (fun p => (data p).getD j 0) x = .ok l := by
  obtain ⟨h0, h⟩ := hr
  obtain ⟨L, l1, l2⟩ := lapVecLoop_total (bd := bd) (g := g) (data := data) (w := fun i => lapWeight (dx i)) (n := n)
    (y := view bd g data x) (hd _ h0.1 h0.2) hd (s := x) (List.range g.dim) (List.replicate n 0) (by simp)
    (fun i hi => h i (List.mem_range.mp hi))
  have e : laplacianVec bd g n dx data x = .ok L := by
    simp only [laplacianVec, gridAt_ok h0, Outcome.ok_bind, l1]
  refine ⟨L, e, l2, fun j hj => ?_⟩
  have hget : ∀ z, Touches bd g z → (view bd g data z)[j]? = some (view bd g (fun p => (data p).getD j 0) z) := by
    intro z hz
    have := hd _ hz.1 hz.2
    simp only [view]
    rw [List.getElem?_eq_getElem (by omega), List.getD_eq_getElem?_getD, List.getElem?_eq_getElem (by omega)]
    rfl
  obtain ⟨l, k1, k2⟩ := lapVecLoop_field hj (hget x h0) l1 (a := 0) (by simp [hj])
  refine ⟨l, k1, ?_⟩
  unfold laplacian
  rw [gridAt_ok h0, Outcome.ok_bind, ← k2]
  rw [lapLoop_eq (F := view bd g fun p => (data p).getD j 0), lapLoop_eq (F := view bd g fun p => (data p).getD j 0)]
  · intro i hi
    obtain ⟨a, b⟩ := h i (List.mem_range.mp hi)
    simp [gridAt_ok a, gridAt_ok b, elem, hget _ a, hget _ b]
  · intro i hi
    obtain ⟨a, b⟩ := h i (List.mem_range.mp hi)
    exact ⟨gridAt_ok a _, gridAt_ok b _⟩

/-! ### Gradient -/

theorem gradLoop_eq {at' : (Nat → Int) → Outcome T} {F : (Nat → Int) → T} (dx : Nat → T) (s : Nat → Int) :
    ∀ (k n : Nat) (acc : List T), acc.length = n + k →
      (∀ i < n + k, at' (bump s i 1) = .ok (F (bump s i 1)) ∧ at' (bump s i (-1)) = .ok (F (bump s i (-1)))) →
      gradLoop at' dx (List.range' n k) s acc =
        .ok (acc.take n ++ (List.range' n k).map fun i => gradWeight (dx i) * (F (bump s i 1) - F (bump s i (-1)))) := by
  intro k
  induction k with
  | zero => intro n acc ha _; simp [gradLoop, List.take_of_length_le (by omega : acc.length ≤ n)]
  | succ k ih =>
    intro n acc ha h
    obtain ⟨h1, h2⟩ := h n (by omega)
    simp only [List.range'_succ, gradLoop, neighbours_eq, h1, h2, Outcome.ok_bind]
    rw [if_pos (by omega), ih (n + 1) _ (by simp; omega) (fun i hi => h i (by omega))]
    simp only [List.map_cons, Outcome.ok.injEq]
    rw [List.take_succ_eq_append_getElem (by simp; omega)]
    simp [List.take_set_of_le]

/-- **C28.** `gradient(GRID, x)` has `dim` entries, each the central difference along that axis; what the result vector held
before is irrelevant. -/
theorem gradient_eq (bd : Build) {g : Shape} (dx : Nat → T) (init : List T) (hi : init.length = g.dim) (data : Int → T)
    (x : Nat → Int) (hr : InReach bd g x) :
    gradient bd g dx init data x = .ok ((List.range g.dim).map fun i =>
      gradWeight (dx i) * (view bd g data (bump x i 1) - view bd g data (bump x i (-1)))) := by
  unfold gradient
  rw [List.range_eq_range', gradLoop_eq (F := view bd g data) dx x g.dim 0 init (by omega)
    (fun i hi => ⟨gridAt_ok (hr.2 i (by omega)).1 _, gridAt_ok (hr.2 i (by omega)).2 _⟩)]
  simp

/-- **C28.** The single-field gradient of a vector grid is the gradient of that field. -/
theorem gradientField_agrees (bd : Build) {g : Shape} (dx : Nat → T) (init : List T) (hi : init.length = g.dim)
    (data : Int → List T) (x : Nat → Int) (hr : InReach bd g x) (j : Nat)
    (hd : ∀ p, 0 ≤ p → p < g.cells → j < (data p).length) :
    gradientField bd g dx init data x j = gradient bd g dx init (fun p => (data p).getD j 0) x := by
  rw [gradient_eq bd dx init hi _ x hr]
  unfold gradientField
  have hget : ∀ z, Touches bd g z →
      ((gridAt bd g data z).bind fun v => elem v j) = .ok (view bd g (fun p => (data p).getD j 0) z) := by
    intro z hz
    have := hd _ hz.1 hz.2
    simp only [gridAt_ok hz, Outcome.ok_bind, elem_ok, view]
    rw [List.getElem?_eq_getElem (by omega), List.getD_eq_getElem?_getD, List.getElem?_eq_getElem (by omega)]
    rfl
  rw [List.range_eq_range', gradLoop_eq (F := view bd g fun p => (data p).getD j 0) dx x g.dim 0 init (by omega)
    (fun i hi => ⟨hget _ (hr.2 i (by omega)).1, hget _ (hr.2 i (by omega)).2⟩)]
  simp

theorem divLoop_eq {at' : (Nat → Int) → Outcome T} {F : (Nat → Int) → T} (dx : Nat → T) (s : Nat → Int) :
    ∀ (is : List Nat) (acc : T),
      (∀ i ∈ is, at' (bump s i 1) = .ok (F (bump s i 1)) ∧ at' (bump s i (-1)) = .ok (F (bump s i (-1)))) →
      divLoop at' dx is s acc =
        .ok (is.foldl (fun a i => a + gradWeight (dx i) * (F (bump s i 1) - F (bump s i (-1)))) acc) := by
  intro is
  induction is with
  | nil => intro acc _; rfl
  | cons i is ih =>
    intro acc h
    obtain ⟨h1, h2⟩ := h i (by simp)
    simp only [divLoop, neighbours_eq, h1, h2, Outcome.ok_bind, List.foldl_cons]
    exact ih _ (fun j hj => h j (by simp [hj]))

end Raw
end MMSP.Stencil
