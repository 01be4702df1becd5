import Verif.MonteCarlo
import Verif.SpinProps
import Verif.BufferProps
/-!
# Monte Carlo grain growth: sublattices, state space, energy, termination (C54, C55)
-/

namespace MMSP.MonteCarlo

open Stencil Finset Spin

/-! ## Sites and sublattices -/

/-- The node lies on sublattice `sub`: the parity of its coordinates spells `sub` in binary. -/
def Colour (dim sub : Nat) (x : Nat → Int) : Prop := ∀ i < dim, x i % 2 = bit dim sub i

theorem tmod_two (a : Int) : Int.tmod a 2 = 0 ↔ a % 2 = 0 := by
  rw [← Int.dvd_iff_tmod_eq_zero, Int.dvd_iff_emod_eq_zero]

theorem start_even (g : Shape) (i : Nat) : start g i % 2 = 0 ∧ start g i ≤ g.x0 i ∧ g.x0 i - 1 ≤ start g i := by
  unfold start
  have := tmod_two (g.x0 i)
  split_ifs with h
  · have : ¬ g.x0 i % 2 = 0 := fun h' => h (this.2 h'); omega
  · have : g.x0 i % 2 = 0 := this.1 (not_not.1 h); omega

theorem bit_range (dim sub i : Nat) : bit dim sub i = 0 ∨ bit dim sub i = 1 := by
  unfold bit; omega

theorem site_colour (g : Shape) (c : Int) (sub : Nat) : Colour g.dim sub (site g c sub) := by
  intro i _
  have := start_even g i
  have := bit_range g.dim sub i
  unfold site
  omega

theorem cellsAlong_eq (g : Shape) {i : Nat} (h : g.x0 i ≤ g.x1 i) :
    cellsAlong g i = if g.x0 0 % 2 = 0 then (g.x1 i - g.x0 i) / 2 + 1 else (g.x1 i - g.x0 i + 1) / 2 + 1 := by
  unfold cellsAlong
  dsimp only
  rw [Int.tdiv_eq_ediv_of_nonneg (by omega : (0 : Int) ≤ g.x1 i - g.x0 i)]
  simp only [tmod_two]
  split_ifs <;> omega

theorem numCells_two {g : Shape} (h : g.dim = 2) : numCells g = cellsAlong g 0 * cellsAlong g 1 := by
  unfold numCells; rw [h]; simp [List.range_succ]

theorem numCells_three {g : Shape} (h : g.dim = 3) : numCells g = cellsAlong g 0 * cellsAlong g 1 * cellsAlong g 2 := by
  unfold numCells; rw [h]; simp [List.range_succ]

theorem mixed2 {L1 q0 q1 : Int} (h1 : 0 ≤ q1) (h2 : q1 < L1) (h0 : 0 ≤ q0) : Int.tmod (q0 * L1 + q1) L1 = q1 ∧ Int.tdiv (q0 * L1 + q1) L1 = q0 := by
  have hc : 0 ≤ q0 * L1 + q1 := by have := mul_nonneg h0 (by omega : 0 ≤ L1); omega
  rw [Int.tmod_eq_emod_of_nonneg hc, Int.tdiv_eq_ediv_of_nonneg hc]
  constructor
  · rw [add_comm, Int.add_mul_emod_self_right]; exact Int.emod_eq_of_lt h1 h2
  · rw [add_comm, Int.add_mul_ediv_right _ _ (by omega), Int.ediv_eq_zero_of_lt h1 h2, zero_add]

/-- Every point of sublattice `sub` within the cells is the site of some cell. -/
theorem site_surj {g : Shape} (hdim : g.dim = 2 ∨ g.dim = 3) {sub : Nat} {x : Nat → Int} (hc : Colour g.dim sub x)
    (hx : ∀ i < g.dim, start g i ≤ x i ∧ (x i - start g i) / 2 < cellsAlong g i) :
    ∃ c : Nat, (c : Int) < numCells g ∧ ∀ i < g.dim, site g c sub i = x i := by
  have hq : ∀ i < g.dim, 0 ≤ (x i - start g i) / 2 ∧ x i = start g i + 2 * ((x i - start g i) / 2) + bit g.dim sub i := by
    intro i hi
    have := start_even g i
    have := hc i hi
    have := hx i hi
    omega
  rcases hdim with h | h
  · have a0 := hq 0 (by omega); have a1 := hq 1 (by omega)
    have b0 := (hx 0 (by omega)).2; have b1 := (hx 1 (by omega)).2
    generalize (x 0 - start g 0) / 2 = q0 at a0 b0
    generalize (x 1 - start g 1) / 2 = q1 at a1 b1
    have hm := mixed2 a1.1 b1 a0.1
    have hnn : 0 ≤ q0 * cellsAlong g 1 + q1 := by have := mul_nonneg a0.1 (by omega : 0 ≤ cellsAlong g 1); omega
    refine ⟨(q0 * cellsAlong g 1 + q1).toNat, ?_, fun i hi => ?_⟩
    · rw [Int.toNat_of_nonneg hnn, numCells_two h]
      have := mul_le_mul_of_nonneg_right (by omega : q0 + 1 ≤ cellsAlong g 0) (by omega : 0 ≤ cellsAlong g 1)
      rw [add_mul, one_mul] at this
      omega
    · rw [Int.toNat_of_nonneg hnn]
      unfold site cellCoord
      rw [if_pos h]
      have hi' : i = 0 ∨ i = 1 := by omega
      rcases hi' with rfl | rfl
      · rw [if_neg (by decide), hm.2]; exact a0.2.symm
      · rw [if_pos rfl, hm.1]; exact a1.2.symm
  · have a0 := hq 0 (by omega); have a1 := hq 1 (by omega); have a2 := hq 2 (by omega)
    have b0 := (hx 0 (by omega)).2; have b1 := (hx 1 (by omega)).2; have b2 := (hx 2 (by omega)).2
    generalize (x 0 - start g 0) / 2 = q0 at a0 b0
    generalize (x 1 - start g 1) / 2 = q1 at a1 b1
    generalize (x 2 - start g 2) / 2 = q2 at a2 b2
    have hn1 : 0 ≤ q0 * cellsAlong g 1 + q1 := by have := mul_nonneg a0.1 (by omega : 0 ≤ cellsAlong g 1); omega
    have hm := mixed2 a1.1 b1 a0.1
    have hm2 := mixed2 a2.1 b2 hn1
    have hnn : 0 ≤ (q0 * cellsAlong g 1 + q1) * cellsAlong g 2 + q2 := by have := mul_nonneg hn1 (by omega : 0 ≤ cellsAlong g 2); omega
    refine ⟨((q0 * cellsAlong g 1 + q1) * cellsAlong g 2 + q2).toNat, ?_, fun i hi => ?_⟩
    · rw [Int.toNat_of_nonneg hnn, numCells_three h]
      have e1 := mul_le_mul_of_nonneg_right (by omega : q0 + 1 ≤ cellsAlong g 0) (by omega : 0 ≤ cellsAlong g 1)
      rw [add_mul, one_mul] at e1
      have e2 := mul_le_mul_of_nonneg_right (by omega : q0 * cellsAlong g 1 + q1 + 1 ≤ cellsAlong g 0 * cellsAlong g 1) (by omega : 0 ≤ cellsAlong g 2)
      rw [add_mul, one_mul] at e2
      omega
    · rw [Int.toNat_of_nonneg hnn]
      unfold site cellCoord
      rw [if_neg (by omega), if_pos h, hm2.1, hm2.2, hm.1, hm.2]
      have hi' : i = 0 ∨ i = 1 ∨ i = 2 := by omega
      rcases hi' with rfl | rfl | rfl
      · rw [if_neg (by decide), if_neg (by decide)]; exact a0.2.symm
      · rw [if_neg (by decide), if_pos rfl]; exact a1.2.symm
      · rw [if_pos rfl]; exact a2.2.symm

/-- **C54.** Every node of a grid of two or three dimensions can be drawn: it is the site of a cell, for the sublattice of its parities. This holds for every position of the
box, although the numbers of cells along all axes are computed from the parity of the first. -/
theorem node_drawn {g : Shape} (hg : g.Wf) (hdim : g.dim = 2 ∨ g.dim = 3) {x : Nat → Int} (hx : g.IsNode x) {sub : Nat} (hc : Colour g.dim sub x) :
    ∃ c : Nat, (c : Int) < numCells g ∧ ∀ i < g.dim, site g c sub i = x i := by
  apply site_surj hdim hc
  intro i hi
  have := hx i hi
  have := start_even g i
  have := hg.side i hi
  rw [cellsAlong_eq g (by omega)]
  split_ifs <;> omega

/-- Every node has a sublattice. -/
theorem exists_colour {dim : Nat} (hdim : dim = 2 ∨ dim = 3) (x : Nat → Int) : ∃ sub, sub < numSublattices dim ∧ Colour dim sub x := by
  rcases hdim with rfl | rfl
  · refine ⟨((x 0 % 2) * 2 + x 1 % 2).toNat, by simp [numSublattices]; omega, fun i hi => ?_⟩
    have hi' : i = 0 ∨ i = 1 := by omega
    rcases hi' with rfl | rfl <;> simp only [bit] <;> norm_num <;> omega
  · refine ⟨((x 0 % 2) * 4 + (x 1 % 2) * 2 + x 2 % 2).toNat, by simp [numSublattices]; omega, fun i hi => ?_⟩
    have hi' : i = 0 ∨ i = 1 ∨ i = 2 := by omega
    rcases hi' with rfl | rfl | rfl <;> simp only [bit] <;> norm_num <;> omega

/-- **C54.** No two different nodes of a sublattice are neighbours. -/
theorem colour_apart {dim sub : Nat} {x o : Nat → Int} (hx : Colour dim sub x) (ho : Near o) (hy : Colour dim sub (shift x o)) : ∀ i < dim, o i = 0 := by
  intro i hi
  have := hx i hi
  have := hy i hi
  have := ho i
  unfold shift at *
  omega

/-! ## One attempt -/

/-- The part of the box around a node that lies in the global domain `lo ≤ y < hi` is in the local array, and is addressed without boundary condition. -/
structure Local (bd : Build) (g : Shape) (lo hi : Nat → Int) : Prop where
  wf : g.Wf
  inside : ∀ i < g.dim, lo i ≤ g.x0 i ∧ g.x1 i ≤ hi i
  plain : ∀ x, g.IsNode x → ∀ o, Near o → (∀ i < g.dim, lo i ≤ x i + o i ∧ x i + o i < hi i) →
    g.IsCell (shift x o) ∧ ∀ j < g.dim, checkBoundary bd (shift x o j) (g.x0 j) (g.x1 j) (g.b0 j) (g.b1 j) = shift x o j

/-- A serial grid whose global box is the local one. -/
theorem local_serial (bd : Build) {g : Shape} (hg : g.Wf) : Local bd g g.x0 g.x1 := by
  refine ⟨hg, fun i _ => ⟨le_refl _, le_refl _⟩, fun x hx o _ h => ⟨fun j hj => ?_, fun j hj => ?_⟩⟩
  · have := h j hj; have := hg.ghosts; unfold shift; omega
  · exact checkBoundary_inside _ _ _ _ _ _ (h j hj)

/-- A rank of a parallel run with at least one layer of ghosts, its inner sides marked `parallel`. -/
theorem local_mpi {g : Shape} (hg : g.Wf) (hgh : 1 ≤ g.ghosts) {lo hi : Nat → Int}
    (h0 : ∀ i < g.dim, g.x0 i = lo i ∨ lo i < g.x0 i ∧ g.b0 i = .parallel) (h1 : ∀ i < g.dim, g.x1 i = hi i ∨ g.x1 i < hi i ∧ g.b1 i = .parallel) : Local .mpi g lo hi := by
  refine ⟨hg, fun i hi' => ?_, fun x hx o ho h => ⟨fun j hj => ?_, fun j hj => ?_⟩⟩
  · have := h0 i hi'; have := h1 i hi'; omega
  · have := hx j hj; have := ho j; unfold shift; omega
  · have a := h j hj
    have b := h0 j hj
    have c := h1 j hj
    unfold shift
    by_cases hin : g.x0 j ≤ x j + o j ∧ x j + o j < g.x1 j
    · exact checkBoundary_inside _ _ _ _ _ _ hin
    · unfold checkBoundary
      by_cases hl : x j + o j < g.x0 j
      · have : g.b0 j = .parallel := by rcases b with b | b; omega; exact b.2
        rw [if_pos hl, this]; simp
      · have : g.b1 j = .parallel := by rcases c with c | c; omega; exact c.2
        rw [if_neg hl, if_pos (by omega), this]; simp

section
variable {bd : Build} {g : Shape} {lo hi : Nat → Int} (hl : Local bd g lo hi)
include hl

/-- The displacement leads from `x` to another site of the global domain. -/
def Adm (g : Shape) (lo hi : Nat → Int) (x o : Nat → Int) : Prop := ¬ skipped g.dim lo hi x (shift x o)

omit hl in
theorem adm_iff {x o : Nat → Int} : Adm g lo hi x o ↔ (∃ i, i < g.dim ∧ o i ≠ 0) ∧ ∀ i < g.dim, lo i ≤ x i + o i ∧ x i + o i < hi i := by
  unfold Adm skipped shift
  constructor
  · intro h
    rw [not_or] at h
    refine ⟨?_, fun i hi' => ?_⟩
    · by_contra hc
      apply h.1
      intro i hi'
      by_contra h2
      exact hc ⟨i, hi', by omega⟩
    · by_contra hc
      exact h.2 ⟨i, hi', by omega⟩
  · rintro ⟨⟨i, hi', h0⟩, h⟩ (h1 | ⟨j, hj, h1⟩)
    · have := h1 i hi'; omega
    · have := h j hj; omega

theorem plain_at {x o : Nat → Int} (hx : g.IsNode x) (ho : Near o) (h : Adm g lo hi x o) (d : Int → Int) :
    g.IsCell (shift x o) ∧ g.atVec bd (shift x o) = g.rawOffset (shift x o) ∧ gridAt bd g d (shift x o) = .ok (d (g.rawOffset (shift x o))) := by
  obtain ⟨hc, hb⟩ := hl.plain x hx o ho (adm_iff.1 h).2
  have e := Shape.atVec_eq_raw (g := g) bd hb
  refine ⟨hc, e, ?_⟩
  have := Shape.rawOffset_bounds hl.wf hc
  unfold gridAt deref
  rw [e]
  exact if_pos this

theorem node_at {x : Nat → Int} (hx : g.IsNode x) : g.IsCell x ∧ g.atVec bd x = g.rawOffset x ∧ 0 ≤ g.rawOffset x ∧ g.rawOffset x < g.cells := by
  have hc : g.IsCell x := fun j hj => by have := hx j hj; have := hl.wf.ghosts; omega
  exact ⟨hc, Shape.atVec_eq_raw bd fun j hj => checkBoundary_inside _ _ _ _ _ _ (hx j hj), Shape.rawOffset_bounds hl.wf hc⟩

open Classical in
/-- `neighbors` lists the spins of the other sites around `x` in the global domain. -/
theorem neighbors_spec {x : Nat → Int} (hx : g.IsNode x) (d : Int → Int) :
    neighbors bd g lo hi d x = .ok (((offsets (List.range g.dim)).filter fun o => Adm g lo hi x o).map fun o => d (g.rawOffset (shift x o))) := by
  unfold neighbors
  rw [boxFold_eq _ List.nodup_range]
  have key : ∀ (L : List (Nat → Int)) (a : List Int), (∀ o ∈ L, Near o) →
      L.foldlM (fun l o => if skipped g.dim lo hi x (shift x o) then Outcome.ok l else (gridAt bd g d (shift x o)).bind fun spin => .ok (l ++ [spin])) a =
        .ok (a ++ (L.filter fun o => Adm g lo hi x o).map fun o => d (g.rawOffset (shift x o))) := by
    intro L
    induction L with
    | nil => intro a _; simp [Outcome.pure_eq]
    | cons o L ih =>
      intro a hL
      rw [List.foldlM_cons]
      by_cases h : skipped g.dim lo hi x (shift x o)
      · rw [if_pos h, List.filter_cons_of_neg (by simp [Adm, h]), Outcome.bind_eq, Outcome.ok_bind, ih _ fun o' h' => hL o' (by simp [h'])]
      · have h' : Adm g lo hi x o := h
        rw [if_neg h, List.filter_cons_of_pos (by simp only [h', decide_true]), (plain_at hl hx (hL o (by simp)) h d).2.2, Outcome.ok_bind, Outcome.bind_eq, Outcome.ok_bind,
          ih _ fun o' h' => hL o' (by simp [h'])]
        simp
  rw [key _ _ fun o ho => ((mem_offsets List.nodup_range).1 ho).1, List.nil_append]

open Classical in
theorem energyChange_eq {x : Nat → Int} (hx : g.IsNode x) (d : Int → Int) (a b : Int) :
    energyChange bd g lo hi d x a b = .ok ((offsets (List.range g.dim)).map fun o => if Adm g lo hi x o then 1 / 2 * ((change a b (d (g.rawOffset (shift x o))) : Int) : ℚ) else 0).sum := by
  unfold energyChange
  rw [boxFold_eq _ List.nodup_range]
  have key : ∀ (L : List (Nat → Int)) (s : ℚ), (∀ o ∈ L, Near o) →
      L.foldlM (fun (s : ℚ) o => if skipped g.dim lo hi x (shift x o) then Outcome.ok s else (gridAt bd g d (shift x o)).bind fun spin => .ok (s + 1 / 2 * (change a b spin : Int))) s =
        .ok (s + (L.map fun o => if Adm g lo hi x o then 1 / 2 * ((change a b (d (g.rawOffset (shift x o))) : Int) : ℚ) else 0).sum) := by
    intro L
    induction L with
    | nil => intro s _; simp [Outcome.pure_eq]
    | cons o L ih =>
      intro s hL
      rw [List.foldlM_cons, List.map_cons, List.sum_cons]
      by_cases h : skipped g.dim lo hi x (shift x o)
      · rw [if_pos h, if_neg (by simpa [Adm] using h), Outcome.bind_eq, Outcome.ok_bind, ih _ fun o' h' => hL o' (by simp [h']), zero_add]
      · rw [if_neg h, if_pos (by simpa [Adm] using h), (plain_at hl hx (hL o (by simp)) h d).2.2, Outcome.ok_bind, Outcome.bind_eq, Outcome.ok_bind,
          ih _ fun o' h' => hL o' (by simp [h']), add_assoc]
  rw [key _ _ fun o ho => ((mem_offsets List.nodup_range).1 ho).1, zero_add]

/-- One attempt: nothing happens outside the local box; otherwise at most the site drawn changes, to the unlike spin of a neighbour in the global domain. -/
theorem attempt_cases (select : (Nat → Int) → Nat → Bool) (hot : ℚ → Nat → Bool) (sub : Nat) (d : Int → Int) (r : Draw) :
    (siteOutside g (site g (r.1 % (numCells g).toNat : Nat) sub) ∧ attempt bd g lo hi select hot sub d r = .ok none) ∨
    (¬ siteOutside g (site g (r.1 % (numCells g).toNat : Nat) sub) ∧ ∃ d', attempt bd g lo hi select hot sub d r = .ok (some d') ∧
      (d' = d ∨ ∃ x o, g.IsNode x ∧ Colour g.dim sub x ∧ o ∈ offsets (List.range g.dim) ∧ Adm g lo hi x o ∧ d (g.rawOffset (shift x o)) ≠ d (g.rawOffset x) ∧
        d' = Function.update d (g.rawOffset x) (d (g.rawOffset (shift x o))) ∧
        ∃ dE, energyChange bd g lo hi d x (d (g.rawOffset x)) (d (g.rawOffset (shift x o))) = .ok dE ∧ (dE ≤ 0 ∨ hot dE r.2.2.2 = true))) := by
  classical
  have hcol := site_colour g (r.1 % (numCells g).toNat : Nat) sub
  unfold attempt
  generalize site g (r.1 % (numCells g).toNat : Nat) sub = x at hcol
  dsimp only
  by_cases ho : siteOutside g x
  · exact Or.inl ⟨ho, if_pos ho⟩
  refine Or.inr ⟨ho, ?_⟩
  rw [if_neg ho]
  have hx : g.IsNode x := fun i hi' => by
    by_contra hc; exact ho ⟨i, hi', by omega⟩
  by_cases hs : select x r.2.1 = true
  swap
  · rw [if_pos hs]; exact ⟨d, rfl, Or.inl rfl⟩
  rw [if_neg (not_not.2 hs)]
  obtain ⟨hc, hat, hb⟩ := node_at hl hx
  have hd : gridAt bd g d x = .ok (d (g.rawOffset x)) := by unfold gridAt deref; rw [hat]; exact if_pos hb
  have hst : ∀ v, store g d (g.atVec bd x) v = .ok (Function.update d (g.rawOffset x) v) := fun v => by rw [hat]; exact if_pos hb
  rw [hd, Outcome.ok_bind, neighbors_spec hl hx, Outcome.ok_bind]
  generalize hll : (((offsets (List.range g.dim)).filter fun o => Adm g lo hi x o).map fun o => d (g.rawOffset (shift x o))) = l
  by_cases hcount : l.countP (· == d (g.rawOffset x)) = l.length
  · rw [if_pos hcount]; exact ⟨d, rfl, Or.inl rfl⟩
  rw [if_neg hcount]
  have hlen : 0 < l.length := by
    by_contra h0
    have : l = [] := List.eq_nil_of_length_eq_zero (by omega)
    rw [this] at hcount
    simp at hcount
  have hlt := Nat.mod_lt r.2.2.1 hlen
  rw [List.getElem?_eq_getElem hlt]
  dsimp only
  have hmem := List.getElem_mem hlt
  generalize l[r.2.2.1 % l.length] = spin2 at hmem
  rw [← hll, List.mem_map] at hmem
  obtain ⟨o, ho', rfl⟩ := hmem
  rw [List.mem_filter, decide_eq_true_iff] at ho'
  by_cases hne : d (g.rawOffset x) ≠ d (g.rawOffset (shift x o))
  · rw [if_pos hne]
    have hE := energyChange_eq hl hx d (d (g.rawOffset x)) (d (g.rawOffset (shift x o)))
    generalize ((offsets (List.range g.dim)).map fun o' => if Adm g lo hi x o' then 1 / 2 * ((change (d (g.rawOffset x)) (d (g.rawOffset (shift x o)))
      (d (g.rawOffset (shift x o'))) : Int) : ℚ) else 0).sum = dE at hE
    rw [hE, Outcome.ok_bind, hst, Outcome.ok_bind]
    by_cases h1 : dE ≤ 0
    · rw [if_pos h1]; exact ⟨_, rfl, Or.inr ⟨x, o, hx, hcol, ho'.1, ho'.2, Ne.symm hne, rfl, dE, hE, Or.inl h1⟩⟩
    · rw [if_neg h1]
      by_cases h2 : hot dE r.2.2.2 = true
      · rw [if_pos h2]; exact ⟨_, rfl, Or.inr ⟨x, o, hx, hcol, ho'.1, ho'.2, Ne.symm hne, rfl, dE, hE, Or.inr h2⟩⟩
      · rw [if_neg h2]; exact ⟨_, rfl, Or.inl rfl⟩
  · rw [if_neg hne]; exact ⟨_, rfl, Or.inl rfl⟩

/-! ## One sublattice -/

/-- What the pass over one sublattice may have made of `d`. -/
structure Evolved (g : Shape) (lo hi : Nat → Int) (sub : Nat) (d d' : Int → Int) : Prop where
  /-- only nodes of the sublattice change -/
  colour : ∀ p, d' p ≠ d p → ∃ x, g.IsNode x ∧ Colour g.dim sub x ∧ p = g.rawOffset x
  /-- their new spin is one a neighbour in the global domain had *before the pass* -/
  value : ∀ x, g.IsNode x → Colour g.dim sub x → d' (g.rawOffset x) = d (g.rawOffset x) ∨
    ∃ o, Near o ∧ Adm g lo hi x o ∧ d' (g.rawOffset x) = d (g.rawOffset (shift x o))

omit hl in
theorem Evolved.refl (sub : Nat) (d : Int → Int) : Evolved g lo hi sub d d := ⟨fun _ h => absurd rfl h, fun _ _ _ => Or.inl rfl⟩

theorem Evolved.step {sub : Nat} {d d' : Int → Int} (h : Evolved g lo hi sub d d') {x o : Nat → Int} (hx : g.IsNode x) (hc : Colour g.dim sub x) (ho : Near o)
    (ha : Adm g lo hi x o) : Evolved g lo hi sub d (Function.update d' (g.rawOffset x) (d' (g.rawOffset (shift x o)))) := by
  have hcell := (plain_at hl hx ho ha d).1
  have hold : d' (g.rawOffset (shift x o)) = d (g.rawOffset (shift x o)) := by
    by_contra hne
    obtain ⟨y, hy, hyc, e⟩ := h.colour _ hne
    have hs := Shape.rawOffset_inj hcell (node_at hl hy).1 e
    obtain ⟨⟨i, hi', h0⟩, -⟩ := adm_iff.1 ha
    exact h0 (colour_apart hc ho (fun j hj => by rw [hs j hj]; exact hyc j hj) i hi')
  constructor
  · intro p hp
    by_cases e : p = g.rawOffset x
    · exact ⟨x, hx, hc, e⟩
    · rw [Function.update_of_ne e] at hp; exact h.colour p hp
  · intro y hy hyc
    by_cases e : g.rawOffset y = g.rawOffset x
    · right
      have hs := Shape.rawOffset_inj (node_at hl hy).1 (node_at hl hx).1 e
      have e2 : g.rawOffset (shift y o) = g.rawOffset (shift x o) := rawOffset_congr fun j hj => by unfold shift; rw [hs j hj]
      refine ⟨o, ho, ?_, ?_⟩
      · rw [adm_iff] at ha ⊢
        exact ⟨ha.1, fun i hi' => by rw [hs i hi']; exact ha.2 i hi'⟩
      · rw [e, Function.update_self, e2, hold]
    · rw [Function.update_of_ne e]; exact h.value y hy hyc

theorem pass_evolves (select : (Nat → Int) → Nat → Bool) (hot : ℚ → Nat → Bool) (sub k : Nat) (draws : List Draw) {d0 d : Int → Int} (h : Evolved g lo hi sub d0 d) :
    ∃ o, pass bd g lo hi select hot sub k draws d = .ok o ∧ ∀ d', o = some d' → Evolved g lo hi sub d0 d' := by
  induction draws generalizing k d with
  | nil =>
    cases k with
    | zero => exact ⟨_, rfl, fun d' e => by cases e; exact h⟩
    | succ k => exact ⟨_, rfl, fun d' e => by cases e⟩
  | cons r rs ih =>
    cases k with
    | zero => exact ⟨_, rfl, fun d' e => by cases e; exact h⟩
    | succ k =>
      unfold pass
      rcases attempt_cases hl select hot sub d r with ⟨-, e⟩ | ⟨-, d', e, hd'⟩
      · rw [e, Outcome.ok_bind]; exact ih (k + 1) h
      · rw [e, Outcome.ok_bind]
        apply ih k
        rcases hd' with rfl | ⟨x, o, hx, hc, ho, ha, -, rfl, -⟩
        · exact h
        · exact h.step hl hx hc ((mem_offsets List.nodup_range).1 ho).1 ha

/-- **C54.** The pass over a sublattice, on any rank and whatever is drawn, has no undefined behaviour, changes only nodes of that sublattice, and gives each of them its old
spin or one that a neighbouring site of the global domain had before the pass — so the outcome does not depend on the order in which the ranks work. -/
theorem pass_spec (select : (Nat → Int) → Nat → Bool) (hot : ℚ → Nat → Bool) (sub k : Nat) (draws : List Draw) (d : Int → Int) :
    ∃ o, pass bd g lo hi select hot sub k draws d = .ok o ∧ ∀ d', o = some d' → Evolved g lo hi sub d d' :=
  pass_evolves hl select hot sub k draws (Evolved.refl sub d)

/-- The pass ends with the numbers drawn exactly if enough of the sites drawn are inside. -/
theorem pass_ends_iff (select : (Nat → Int) → Nat → Bool) (hot : ℚ → Nat → Bool) (sub k : Nat) (draws : List Draw) (d : Int → Int) :
    (∃ d', pass bd g lo hi select hot sub k draws d = .ok (some d')) ↔
      k ≤ (draws.filter fun r : Draw => ¬ siteOutside g (site g (r.1 % (numCells g).toNat : Nat) sub)).length := by
  induction draws generalizing k d with
  | nil =>
    cases k with
    | zero => exact ⟨fun _ => Nat.zero_le _, fun _ => ⟨d, rfl⟩⟩
    | succ k => exact ⟨fun ⟨_, h⟩ => (by cases h), fun h => (by simp at h)⟩
  | cons r rs ih =>
    cases k with
    | zero => exact ⟨fun _ => Nat.zero_le _, fun _ => ⟨d, rfl⟩⟩
    | succ k =>
      rw [pass]
      rcases attempt_cases hl select hot sub d r with ⟨ho, e⟩ | ⟨ho, d', e, -⟩
      · rw [e, Outcome.ok_bind, List.filter_cons_of_neg (by simpa using ho)]
        exact ih (k + 1) d
      · rw [e, Outcome.ok_bind, List.filter_cons_of_pos (by simpa using ho), List.length_cons, Nat.succ_le_succ_iff]
        exact ih k d'

end

/-! ## Termination -/

/-- **C55.** A pass that has something to do can never end if no site of its sublattice is in the local box: it only ever draws sites outside. -/
theorem pass_hangs {bd : Build} {g : Shape} {lo hi : Nat → Int} (hl : Local bd g lo hi) (select : (Nat → Int) → Nat → Bool) (hot : ℚ → Nat → Bool) {sub k : Nat}
    (hk : 0 < k) (hnone : ∀ c : Int, siteOutside g (site g c sub)) (draws : List Draw) (d : Int → Int) : pass bd g lo hi select hot sub k draws d = .ok none := by
  obtain ⟨o, ho, -⟩ := pass_spec hl select hot sub k draws d
  cases o with
  | none => exact ho
  | some d' =>
    have := (pass_ends_iff hl select hot sub k draws d).1 ⟨d', ho⟩
    rw [List.filter_eq_nil_iff.2 (fun r _ => by simpa using hnone _), List.length_nil] at this
    omega

theorem numFlips_pos {g : Shape} {sub c : Nat} (hc : (c : Int) < numCells g) (h : ¬ isOutsideDomain g (site g c sub)) : 0 < numFlips g sub := by
  unfold numFlips
  apply List.length_pos_of_mem (a := c)
  rw [List.mem_filter]
  exact ⟨List.mem_range.2 (by omega), by simpa using h⟩

/-- **C55.** A box that is one layer thick along some axis, in an even place (as every one-layer serial grid from 0, and every such rank of an even split), has a sublattice
whose sites are counted but do not exist. -/
theorem thin_sublattice {g : Shape} (hg : g.Wf) (hdim : g.dim = 2 ∨ g.dim = 3) {a : Nat} (ha : a < g.dim) (hthin : g.x1 a = g.x0 a + 1) (hpar : g.x0 a % 2 = 0 ∨ g.x0 0 % 2 ≠ 0) :
    ∃ sub, sub < numSublattices g.dim ∧ 0 < numFlips g sub ∧ ∀ c : Int, siteOutside g (site g c sub) := by
  have hz : ∀ z : Nat → Int, z = Function.update g.x0 a (g.x0 a + 1) → ∃ sub, sub < numSublattices g.dim ∧ 0 < numFlips g sub ∧ ∀ c : Int, siteOutside g (site g c sub) := by
    intro z hz
    have hza : z a = g.x0 a + 1 := by rw [hz, Function.update_self]
    have hzo : ∀ i, i ≠ a → z i = g.x0 i := fun i hi => by rw [hz, Function.update_of_ne hi]
    obtain ⟨sub, hsub, hcol⟩ := exists_colour hdim z
    refine ⟨sub, hsub, ?_, fun c => ⟨a, ha, ?_⟩⟩
    · obtain ⟨c, hc, hs⟩ := site_surj hdim hcol (fun i hi => by
        have h1 := start_even g i
        have h2 := hg.side i hi
        rw [cellsAlong_eq g (by omega)]
        by_cases e : i = a
        · subst e; rw [hza]; split_ifs <;> omega
        · rw [hzo i e]; split_ifs <;> omega)
      refine numFlips_pos hc ?_
      rintro ⟨i, hi, h⟩
      rw [hs i hi] at h
      have h2 := hg.side i hi
      by_cases e : i = a
      · subst e; omega
      · rw [hzo i e] at h; omega
    · have h1 := site_colour g c sub a ha
      have h2 := hcol a ha
      omega
  exact hz _ rfl

theorem sub_none {σ : Type} {l : List Nat} {f : Nat → σ → Outcome (Option σ)} (hf : ∀ s d, ∃ o, f s d = .ok o) {s : Nat} (hs : s ∈ l) (hn : ∀ d, f s d = .ok none) (o : Option σ) :
    l.foldlM (fun o s => andThen (f s) o) o = .ok none := by
  have stay : ∀ l : List Nat, l.foldlM (fun o s => andThen (f s) o) (none : Option σ) = .ok none := by
    intro l
    induction l with
    | nil => rfl
    | cons a l ih => rw [List.foldlM_cons]; exact ih
  induction l generalizing o with
  | nil => simp at hs
  | cons a l ih =>
    cases o with
    | none => exact stay _
    | some d =>
      rw [List.foldlM_cons]
      by_cases e : s = a
      · subst e
        rw [show andThen (f s) (some d) = f s d from rfl, hn d, Outcome.bind_eq, Outcome.ok_bind]
        exact stay l
      · obtain ⟨o', h'⟩ := hf a d
        rw [show andThen (f a) (some d) = f a d from rfl, h', Outcome.bind_eq, Outcome.ok_bind]
        exact ih (by simpa [e] using hs) o'

/-- **C55.** `update` of a serial grid from an even corner that is one layer thick along some axis — a plane stored as a three-dimensional grid, a line stored as a
two-dimensional one — does not return, whatever numbers are drawn. -/
theorem update_hangs {g : Shape} (hg : g.Wf) (hdim : g.dim = 2 ∨ g.dim = 3) {a : Nat} (ha : a < g.dim) (hthin : g.x1 a = g.x0 a + 1) (heven : g.x0 a % 2 = 0)
    (select : (Nat → Int) → Nat → Bool) (hot : ℚ → Nat → Bool) (draws : Nat → Nat → List Draw) {steps : Nat} (hsteps : 0 < steps) (d : Int → Int) :
    update g g.x0 g.x1 select hot draws steps d = .ok none := by
  obtain ⟨sub, hsub, hpos, hout⟩ := thin_sublattice hg hdim ha hthin (Or.inl heven)
  have hl := local_serial .serial hg
  have one : ∀ step (o : Option (Int → Int)), (List.range (numSublattices g.dim)).foldlM (fun o (sub : Nat) =>
      andThen (pass .serial g g.x0 g.x1 select hot sub (numFlips g sub) (draws step sub)) o) o = Outcome.ok none := by
    intro step o
    exact sub_none (f := fun sub d => pass .serial g g.x0 g.x1 select hot sub (numFlips g sub) (draws step sub) d)
      (fun s d => (pass_spec hl select hot s _ _ d).imp fun _ h => h.1) (List.mem_range.2 hsub)
      (fun d => pass_hangs hl select hot hpos hout _ d) o
  unfold update
  simp only [one]
  obtain ⟨n, rfl⟩ : ∃ n, steps = n + 1 := ⟨steps - 1, by omega⟩
  have : ∀ (l : List Nat) (o : Option (Int → Int)), l ≠ [] → l.foldlM (fun _ _ => Outcome.ok none) o = Outcome.ok (none : Option (Int → Int)) := by
    intro l
    induction l with
    | nil => intro _ h; exact absurd rfl h
    | cons b l ih =>
      intro o _
      rw [List.foldlM_cons, Outcome.bind_eq, Outcome.ok_bind]
      by_cases h : l = []
      · subst h; rfl
      · exact ih none h
  exact this _ _ (by simp)

/-- **C55.** In all other cases — no axis one layer thick — a pass can always end: every sublattice has a site in the box, and drawing it often enough completes the pass. -/
theorem pass_can_end_partial {bd : Build} {g : Shape} {lo hi : Nat → Int} (hl : Local bd g lo hi) (hdim : g.dim = 2 ∨ g.dim = 3) (hthick : ∀ i < g.dim, g.x0 i + 2 ≤ g.x1 i)
    (select : (Nat → Int) → Nat → Bool) (hot : ℚ → Nat → Bool) (sub : Nat) (d : Int → Int) :
    ∃ draws d', pass bd g lo hi select hot sub (numFlips g sub) draws d = .ok (some d') := by
  have hcol : Colour g.dim sub fun i => g.x0 i + (g.x0 i + bit g.dim sub i) % 2 := fun i _ => by
    have := bit_range g.dim sub i
    show (g.x0 i + (g.x0 i + bit g.dim sub i) % 2) % 2 = bit g.dim sub i
    omega
  obtain ⟨c, hc, hs⟩ := node_drawn hl.wf hdim (x := fun i => g.x0 i + (g.x0 i + bit g.dim sub i) % 2) (fun i hi' => by have := hthick i hi'; dsimp only; omega) hcol
  refine ⟨List.replicate (numFlips g sub) (c, 0, 0, 0), ?_⟩
  rw [pass_ends_iff hl, List.filter_replicate_of_pos, List.length_replicate]
  have : ¬ siteOutside g (site g (c % (numCells g).toNat : Nat) sub) := by
    rw [Nat.mod_eq_of_lt (by omega)]
    rintro ⟨i, hi', h⟩
    rw [hs i hi'] at h
    have := hthick i hi'
    omega
  simpa using this

/-- **C55.** Grids of one dimension are left as they are: there is no sublattice to go over. -/
theorem update_line {g : Shape} (h1 : g.dim = 1) (lo hi : Nat → Int) (select : (Nat → Int) → Nat → Bool) (hot : ℚ → Nat → Bool) (draws : Nat → Nat → List Draw) (steps : Nat)
    (d : Int → Int) : update g lo hi select hot draws steps d = .ok (some d) := by
  unfold update
  rw [h1]
  have : numSublattices 1 = 0 := rfl
  rw [this]
  induction List.range steps with
  | nil => rfl
  | cons a l ih => rw [List.foldlM_cons]; exact ih

/-! ## Energy -/

/-- Replacing the value at one index changes a sum over admissible pairs, each counted from both ends, by twice the change of its own pairs. -/
theorem pair_update {V : Type} {axes : List Nat} {K : Nat} {adm : (Nat → Int) → Nat → Prop} [∀ o n, Decidable (adm o n)] {nb : (Nat → Int) → Nat → Nat}
    (hneg : ∀ o ∈ offsets axes, -o ∈ offsets axes)
    (h : ∀ o ∈ offsets axes, ∀ n < K, adm o n → nb o n < K ∧ nb o n ≠ n ∧ adm (-o) (nb o n) ∧ nb (-o) (nb o n) = n)
    {φ : V → V → Int} (hφ : ∀ a b, φ a b = φ b a) (u : Nat → V) {m : Nat} (hm : m < K) (v : V) :
    (∑ n ∈ range K, ((offsets axes).map fun o => if adm o n then φ (Function.update u m v n) (Function.update u m v (nb o n)) else 0).sum) -
      ∑ n ∈ range K, ((offsets axes).map fun o => if adm o n then φ (u n) (u (nb o n)) else 0).sum =
    2 * ((offsets axes).map fun o => if adm o m then φ v (u (nb o m)) - φ (u m) (u (nb o m)) else 0).sum := by
  let c : (Nat → Int) → Int := fun o => if adm o m then φ v (u (nb o m)) - φ (u m) (u (nb o m)) else 0
  have key : ∀ o ∈ offsets axes, (∑ n ∈ range K, if adm o n then φ (Function.update u m v n) (Function.update u m v (nb o n)) else 0) -
      (∑ n ∈ range K, if adm o n then φ (u n) (u (nb o n)) else 0) = c o + c (-o) := by
    intro o ho
    rw [← Finset.sum_sub_distrib]
    have hpt : ∀ n ∈ range K, ((if adm o n then φ (Function.update u m v n) (Function.update u m v (nb o n)) else 0) - if adm o n then φ (u n) (u (nb o n)) else 0) =
        (if n = m then c o else 0) + if n = nb (-o) m ∧ adm (-o) m then c (-o) else 0 := by
      intro n hn
      rw [Finset.mem_range] at hn
      by_cases hnm : n = m
      · subst hnm
        have hno : ¬ (n = nb (-o) n ∧ adm (-o) n) := fun ⟨e, ha⟩ => (h _ (hneg o ho) n hn ha).2.1 e.symm
        rw [if_pos rfl, if_neg hno, add_zero]
        by_cases ha : adm o n
        · have := (h o ho n hn ha).2.1
          simp only [c, if_pos ha, Function.update_self, Function.update_of_ne this]
        · simp only [c, if_neg ha, sub_zero]
      · rw [if_neg hnm, zero_add]
        by_cases hb : n = nb (-o) m ∧ adm (-o) m
        · obtain ⟨-, -, h3, h4⟩ := h _ (hneg o ho) m hm hb.2
          rw [neg_neg, ← hb.1] at h3 h4
          rw [if_pos hb, if_pos h3, if_pos h3, h4, Function.update_self, Function.update_of_ne hnm]
          simp only [c, if_pos hb.2, ← hb.1]
          rw [hφ _ v, hφ _ (u m)]
        · rw [if_neg hb]
          by_cases ha : adm o n
          · obtain ⟨-, -, h3, h4⟩ := h o ho n hn ha
            have : nb o n ≠ m := by
              intro e
              rw [e] at h3 h4
              exact hb ⟨h4.symm, h3⟩
            rw [if_pos ha, if_pos ha, Function.update_of_ne hnm, Function.update_of_ne this, sub_self]
          · rw [if_neg ha, if_neg ha, sub_self]
    rw [Finset.sum_congr rfl hpt, Finset.sum_add_distrib, Finset.sum_ite_eq', if_pos (Finset.mem_range.2 hm)]
    congr 1
    by_cases ha : adm (-o) m
    · simp only [ha, and_true]
      rw [Finset.sum_ite_eq', if_pos (Finset.mem_range.2 (h _ (hneg o ho) m hm ha).1)]
    · simp only [ha, and_false, if_false, Finset.sum_const_zero]
      simp only [c, if_neg ha]
  rw [sum_swap, sum_swap, ← list_sum_sub, List.map_congr_left key, List.sum_map_add, sum_neg axes c, ← two_mul]

open Classical in
/-- The number of pairs of neighbouring nodes of the box with unlike spins, each counted from both ends; the box does not wrap around. -/
noncomputable def boundaries (g : Shape) (d : Int → Int) : Int :=
  ∑ n ∈ range g.nodes.toNat, ((offsets (List.range g.dim)).map fun o => if Adm g g.x0 g.x1 (g.position n) o then
    unlike (d (g.rawOffset (g.position n))) (d (g.rawOffset (shift (g.position n) o))) else 0).sum

theorem offsets_neg {axes : List Nat} (hn : axes.Nodup) {o : Nat → Int} (ho : o ∈ offsets axes) : -o ∈ offsets axes := by
  rw [mem_offsets hn] at ho ⊢
  exact ⟨near_neg ho.1, fun j hj => by simp [ho.2 j hj]⟩

/-- **C54.** `dE` is a quarter of the change that the exchange of the spin makes to the number of unlike neighbour pairs counted from both ends, i.e. half of the change of the
number of unlike pairs: the energy of the Potts model with coupling 1/2, on the open box. -/
theorem energy_spec {bd : Build} {g : Shape} (hg : g.Wf) {x : Nat → Int} (hx : g.IsNode x) (d : Int → Int) (v : Int) :
    ∃ dE, energyChange bd g g.x0 g.x1 d x (d (g.rawOffset x)) v = .ok dE ∧ ((boundaries g (Function.update d (g.rawOffset x) v) - boundaries g d : Int) : ℚ) = 4 * dE := by
  classical
  have hl := local_serial bd hg
  refine ⟨_, energyChange_eq hl hx d _ v, ?_⟩
  have hpos : ∀ n : Nat, n < g.nodes.toNat → g.IsNode (g.position n) := fun n hn => Shape.position_isNode hg (by omega) (by omega)
  obtain ⟨mi, ⟨hm0, hm1, hmx⟩, -⟩ := Shape.position_surj hg hx
  obtain ⟨m, rfl⟩ : ∃ m : Nat, mi = m := ⟨mi.toNat, by omega⟩
  have hm : m < g.nodes.toNat := by omega
  have hadm : ∀ o ∈ offsets (List.range g.dim), ∀ n : Nat, n < g.nodes.toNat → Adm g g.x0 g.x1 (g.position n) o →
      ∃ k : Nat, k < g.nodes.toNat ∧ g.SamePoint (g.position k) (shift (g.position n) o) := by
    intro o _ n _ ha
    obtain ⟨k, ⟨h0, h1, h2⟩, -⟩ := Shape.position_surj hg (x := shift (g.position n) o) fun j hj => (adm_iff.1 ha).2 j hj
    exact ⟨k.toNat, by omega, fun j hj => by rw [Int.toNat_of_nonneg h0]; exact h2 j hj⟩
  let nb : (Nat → Int) → Nat → Nat := fun o n => if h : ∃ k : Nat, k < g.nodes.toNat ∧ g.SamePoint (g.position k) (shift (g.position n) o) then h.choose else 0
  have hnb : ∀ o ∈ offsets (List.range g.dim), ∀ n : Nat, n < g.nodes.toNat → Adm g g.x0 g.x1 (g.position n) o →
      nb o n < g.nodes.toNat ∧ g.SamePoint (g.position (nb o n : Nat)) (shift (g.position n) o) := by
    intro o ho n hn ha
    have h := hadm o ho n hn ha
    simp only [nb, dif_pos h]
    exact h.choose_spec
  have hinj : ∀ a b : Nat, a < g.nodes.toNat → b < g.nodes.toNat → g.SamePoint (g.position a) (g.position b) → a = b := by
    intro a b ha hb h
    have := Shape.position_inj hg (i := (a : Int)) (i' := (b : Int)) (by omega) (by omega) (by omega) (by omega) h
    omega
  have hpair : ∀ o ∈ offsets (List.range g.dim), ∀ n < g.nodes.toNat, Adm g g.x0 g.x1 (g.position n) o →
      nb o n < g.nodes.toNat ∧ nb o n ≠ n ∧ Adm g g.x0 g.x1 (g.position (nb o n : Nat)) (-o) ∧ nb (-o) (nb o n) = n := by
    intro o ho n hn ha
    obtain ⟨h1, h2⟩ := hnb o ho n hn ha
    obtain ⟨⟨i, hi, h0⟩, hin⟩ := adm_iff.1 ha
    have hback : Adm g g.x0 g.x1 (g.position (nb o n : Nat)) (-o) := by
      rw [adm_iff]
      refine ⟨⟨i, hi, by simpa using h0⟩, fun j hj => ?_⟩
      have e := h2 j hj
      have := hpos n hn j hj
      unfold shift at e
      rw [e, Pi.neg_apply]
      omega
    refine ⟨h1, ?_, hback, ?_⟩
    · intro e
      have := h2 i hi
      rw [e] at this
      unfold shift at this
      omega
    · obtain ⟨h3, h4⟩ := hnb (-o) (offsets_neg List.nodup_range ho) _ h1 hback
      apply hinj _ _ h3 hn
      intro j hj
      rw [h4 j hj]
      have e := h2 j hj
      unfold shift at e ⊢
      rw [e, Pi.neg_apply]
      omega
  have hxm : g.rawOffset x = g.rawOffset (g.position m) := rawOffset_congr fun j hj => (hmx j hj).symm
  let u : Nat → Int := fun n => d (g.rawOffset (g.position n))
  have hcell : ∀ y, g.IsNode y → g.IsCell y := fun y hy => (node_at hl hy).1
  have hu : ∀ n : Nat, n < g.nodes.toNat → Function.update d (g.rawOffset x) v (g.rawOffset (g.position n)) = Function.update u m v n := by
    intro n hn
    by_cases e : n = m
    · subst e; rw [hxm, Function.update_self, Function.update_self]
    · rw [Function.update_of_ne e, Function.update_of_ne]
      intro e2
      rw [hxm] at e2
      exact e (hinj _ _ hn hm (Shape.rawOffset_inj (hcell _ (hpos n hn)) (hcell _ (hpos m hm)) e2))
  have hnbo : ∀ o ∈ offsets (List.range g.dim), ∀ n : Nat, n < g.nodes.toNat → Adm g g.x0 g.x1 (g.position n) o →
      g.rawOffset (shift (g.position n) o) = g.rawOffset (g.position (nb o n : Nat)) :=
    fun o ho n hn ha => rawOffset_congr fun j hj => ((hnb o ho n hn ha).2 j hj).symm
  have e1 : boundaries g (Function.update d (g.rawOffset x) v) = ∑ n ∈ range g.nodes.toNat, ((offsets (List.range g.dim)).map fun o =>
      if Adm g g.x0 g.x1 (g.position n) o then unlike (Function.update u m v n) (Function.update u m v (nb o n)) else 0).sum := by
    unfold boundaries
    refine Finset.sum_congr rfl fun n hn => ?_
    rw [Finset.mem_range] at hn
    congr 1
    refine List.map_congr_left fun o ho => ?_
    split_ifs with ha
    · rw [hu n hn, hnbo o ho n hn ha, hu _ (hnb o ho n hn ha).1]
    · rfl
  have e2 : boundaries g d = ∑ n ∈ range g.nodes.toNat, ((offsets (List.range g.dim)).map fun o =>
      if Adm g g.x0 g.x1 (g.position n) o then unlike (u n) (u (nb o n)) else 0).sum := by
    unfold boundaries
    refine Finset.sum_congr rfl fun n hn => ?_
    rw [Finset.mem_range] at hn
    congr 1
    refine List.map_congr_left fun o ho => ?_
    split_ifs with ha
    · rw [hnbo o ho n hn ha]
    · rfl
  rw [e1, e2, pair_update (adm := fun o n => Adm g g.x0 g.x1 (g.position n) o) (nb := nb) (fun o ho => offsets_neg List.nodup_range ho) hpair unlike_comm u hm v]
  have e3 : ∀ L : List (Nat → Int), (∀ o ∈ L, o ∈ offsets (List.range g.dim)) →
      ((L.map fun o => if Adm g g.x0 g.x1 (g.position m) o then unlike v (u (nb o m)) - unlike (u m) (u (nb o m)) else 0).sum : ℚ) =
      2 * (L.map fun o => if Adm g g.x0 g.x1 x o then 1 / 2 * ((change (d (g.rawOffset x)) v (d (g.rawOffset (shift x o))) : Int) : ℚ) else 0).sum := by
    intro L
    induction L with
    | nil => intro _; simp
    | cons o L ih =>
      intro hL
      rw [List.map_cons, List.map_cons, List.sum_cons, List.sum_cons, Int.cast_add, ih fun o' h' => hL o' (by simp [h']), mul_add]
      congr 1
      have hiff : Adm g g.x0 g.x1 x o ↔ Adm g g.x0 g.x1 (g.position m) o := by
        rw [adm_iff, adm_iff]
        constructor
        · rintro ⟨a, b⟩; exact ⟨a, fun i hi => by rw [hmx i hi]; exact b i hi⟩
        · rintro ⟨a, b⟩; exact ⟨a, fun i hi => by rw [← hmx i hi]; exact b i hi⟩
      by_cases ha : Adm g g.x0 g.x1 (g.position m) o
      · rw [if_pos ha, if_pos (hiff.2 ha)]
        have e4 : g.rawOffset (shift x o) = g.rawOffset (g.position (nb o m : Nat)) := by
          rw [← hnbo o (hL o (by simp)) m hm ha]
          exact rawOffset_congr fun j hj => by unfold shift; rw [hmx j hj]
        rw [e4, hxm, unlike_comm v, unlike_comm (u m)]
        unfold change unlike
        push_cast
        ring
      · rw [if_neg ha, if_neg fun h => ha (hiff.1 h)]
        simp
  have := e3 (offsets (List.range g.dim)) fun _ h => h
  push_cast at this ⊢
  rw [this]
  ring

/-- **C54.** Without thermal activation the number of unlike neighbour pairs never grows, whatever is drawn. -/
theorem pass_descends {bd : Build} {g : Shape} (hg : g.Wf) (select : (Nat → Int) → Nat → Bool) (sub k : Nat) (draws : List Draw) (d : Int → Int) {d' : Int → Int}
    (h : pass bd g g.x0 g.x1 select (fun _ _ => false) sub k draws d = .ok (some d')) : boundaries g d' ≤ boundaries g d := by
  have hl := local_serial bd hg
  induction draws generalizing k d with
  | nil =>
    cases k with
    | zero => rw [pass] at h; cases h; exact le_refl _
    | succ k => rw [pass] at h; cases h
  | cons r rs ih =>
    cases k with
    | zero => rw [pass] at h; cases h; exact le_refl _
    | succ k =>
      rw [pass] at h
      rcases attempt_cases hl select (fun _ _ => false) sub d r with ⟨-, e⟩ | ⟨-, d1, e, hd⟩
      · rw [e, Outcome.ok_bind] at h; exact ih (k + 1) d h
      · rw [e, Outcome.ok_bind] at h
        refine le_trans (ih k d1 h) ?_
        rcases hd with rfl | ⟨x, o, hx, -, -, -, -, rfl, dE, hE, hle⟩
        · exact le_refl _
        · obtain ⟨dE', hE', hb⟩ := energy_spec (bd := bd) hg hx d (d (g.rawOffset (shift x o)))
          rw [hE] at hE'
          cases hE'
          have h0 : dE ≤ 0 := by rcases hle with h | h; exact h; cases h
          have : ((boundaries g (Function.update d (g.rawOffset x) (d (g.rawOffset (shift x o)))) - boundaries g d : Int) : ℚ) ≤ 0 := by rw [hb]; linarith
          have : boundaries g (Function.update d (g.rawOffset x) (d (g.rawOffset (shift x o)))) - boundaries g d ≤ 0 := by exact_mod_cast this
          omega

/-! ## The whole of `update` -/

theorem fold_invariant {σ : Type} {P : σ → Prop} (l : List Nat) {F : Option σ → Nat → Outcome (Option σ)}
    (hF : ∀ o s, (∀ d, o = some d → P d) → ∃ o', F o s = .ok o' ∧ ∀ d, o' = some d → P d) (o : Option σ) (ho : ∀ d, o = some d → P d) :
    ∃ o', l.foldlM F o = .ok o' ∧ ∀ d, o' = some d → P d := by
  induction l generalizing o with
  | nil => exact ⟨o, rfl, ho⟩
  | cons a l ih =>
    obtain ⟨o', e, h⟩ := hF o a ho
    rw [List.foldlM_cons, e, Outcome.bind_eq, Outcome.ok_bind]
    exact ih o' h

theorem update_invariant {g : Shape} (hg : g.Wf) (select : (Nat → Int) → Nat → Bool) (hot : ℚ → Nat → Bool) (draws : Nat → Nat → List Draw) (steps : Nat) {P : (Int → Int) → Prop}
    (hP : ∀ sub k rs d d', P d → pass .serial g g.x0 g.x1 select hot sub k rs d = .ok (some d') → P d') {d : Int → Int} (hd : P d) :
    ∃ o, update g g.x0 g.x1 select hot draws steps d = .ok o ∧ ∀ d', o = some d' → P d' := by
  unfold update
  refine fold_invariant _ (fun o step ho => fold_invariant _ (fun o sub ho => ?_) o ho) _ (fun d' e => by cases e; exact hd)
  cases o with
  | none => exact ⟨none, rfl, fun _ h => by cases h⟩
  | some d =>
    obtain ⟨o', e, -⟩ := pass_spec (local_serial .serial hg) select hot sub (numFlips g sub) (draws step sub) d
    exact ⟨o', e, fun d' h => hP sub _ _ d d' (ho d rfl) (by rw [← h]; exact e)⟩

/-- **C54.** A serial run, whatever is drawn, has no undefined behaviour, and every spin on the grid afterwards was on the grid before: no new grains appear. -/
theorem update_states {g : Shape} (hg : g.Wf) (select : (Nat → Int) → Nat → Bool) (hot : ℚ → Nat → Bool) (draws : Nat → Nat → List Draw) (steps : Nat) (d : Int → Int) :
    ∃ o, update g g.x0 g.x1 select hot draws steps d = .ok o ∧
      ∀ d', o = some d' → ∀ x, g.IsNode x → ∃ y, g.IsNode y ∧ d' (g.rawOffset x) = d (g.rawOffset y) := by
  refine update_invariant hg select hot draws steps (P := fun d' => ∀ x, g.IsNode x → ∃ y, g.IsNode y ∧ d' (g.rawOffset x) = d (g.rawOffset y)) ?_ (fun x hx => ⟨x, hx, rfl⟩)
  intro sub k rs d1 d2 h1 h x hx
  obtain ⟨o, e, h2⟩ := pass_spec (local_serial .serial hg) select hot sub k rs d1
  rw [h] at e
  cases e
  have ev := h2 d2 rfl
  by_cases hne : d2 (g.rawOffset x) = d1 (g.rawOffset x)
  · rw [hne]; exact h1 x hx
  · obtain ⟨z, hz, hzc, e⟩ := ev.colour _ hne
    rw [e]
    rcases ev.value z hz hzc with e2 | ⟨o, -, ha, e2⟩
    · rw [e2]; exact h1 z hz
    · rw [e2]; exact h1 _ fun j hj => (adm_iff.1 ha).2 j hj

/-- **C54.** Without thermal activation a serial run never increases the number of unlike neighbour pairs. -/
theorem update_descends {g : Shape} (hg : g.Wf) (select : (Nat → Int) → Nat → Bool) (draws : Nat → Nat → List Draw) (steps : Nat) (d : Int → Int) :
    ∃ o, update g g.x0 g.x1 select (fun _ _ => false) draws steps d = .ok o ∧ ∀ d', o = some d' → boundaries g d' ≤ boundaries g d :=
  update_invariant hg select _ draws steps (P := fun d' => boundaries g d' ≤ boundaries g d) (fun sub k rs d1 _ h1 h => le_trans (pass_descends hg select sub k rs d1 h) h1) (le_refl _)

/-! ## Instances -/

/-- A 4×3 grid with a single odd grain in the middle. -/
def plate : Shape := { dim := 2, x0 := fun _ => 0, x1 := fun j => if j = 0 then 4 else 3, b0 := fun _ => .neumann, b1 := fun _ => .neumann, ghosts := 0 }

theorem plate_wf : plate.Wf := ⟨by decide, fun j _ => by show (0 : Int) < if j = 0 then 4 else 3; split_ifs <;> decide, by decide⟩

def speck (p : Int) : Int := if p = 4 then 2 else 1

-- the speck at (1,1) is on sublattice 3; drawing its cell removes it, `numFlips` is 4 although the sublattice has 2 nodes
example : numFlips plate 3 = 4 ∧ (pass .serial plate plate.x0 plate.x1 (fun _ _ => true) (fun _ _ => false) 3 1 [(0, 0, 0, 0)] speck).bind (fun o => .ok (o.map fun d => (d 4, d 3))) =
    .ok (some (1, 1)) := by decide +kernel

-- sublattice 0 leaves it alone
example : (pass .serial plate plate.x0 plate.x1 (fun _ _ => true) (fun _ _ => false) 0 1 [(0, 0, 2, 0)] speck).bind (fun o => .ok (o.map fun d => (d 4, d 0))) =
    .ok (some (2, 1)) := by decide +kernel

example (draws : Nat → Nat → List Draw) : ∃ o, update plate plate.x0 plate.x1 (fun _ _ => true) (fun _ _ => false) draws 5 speck = .ok o ∧
    ∀ d', o = some d' → boundaries plate d' ≤ boundaries plate speck := update_descends plate_wf _ _ _ _

/-- A plane stored as a three-dimensional grid. -/
def layer : Shape := { dim := 3, x0 := fun _ => 0, x1 := fun j => if j = 2 then 1 else 64, b0 := fun _ => .periodic, b1 := fun _ => .periodic, ghosts := 0 }

example (draws : Nat → Nat → List Draw) (d : Int → Int) : update layer layer.x0 layer.x1 (fun _ _ => true) (fun _ _ => true) draws 1 d = .ok none :=
  update_hangs ⟨by decide, fun j _ => by show (0 : Int) < if j = 2 then 1 else 64; split_ifs <;> decide, by decide⟩ (Or.inr rfl) (a := 2) (by decide) (by decide) (by decide) _ _ _
    (by decide) d

/-- The right half of an 8×4 grid on two ranks. -/
def half : Shape :=
  { dim := 2, x0 := fun j => if j = 0 then 4 else 0, x1 := fun j => if j = 0 then 8 else 4, b0 := fun j => if j = 0 then .parallel else .periodic, b1 := fun _ => .periodic, ghosts := 1 }

example : Local .mpi half (fun _ => 0) (fun j => if j = 0 then 8 else 4) :=
  local_mpi ⟨by decide, by decide, by decide⟩ (by decide) (by decide) (by decide)

end MMSP.MonteCarlo
