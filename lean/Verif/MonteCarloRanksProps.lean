import Verif.MonteCarloRanks
import Verif.MonteCarloProps
import Verif.ParallelRunProps
import Verif.Sublattice
/-!
# Monte Carlo grain growth on several ranks is a serial sequence of attempts (C100)
-/

namespace MMSP.MonteCarlo

open Stencil Finset Spin Ghost ParallelRun Decomp

/-! ## Specification -/

/-- The cell of the grid `g` in which the site `x` lies. -/
def cellIndex (g : Shape) (x : Nat → Int) : Nat :=
  let q := fun i => (x i - start g i) / 2
  if g.dim = 2 then (q 0 * cellsAlong g 1 + q 1).toNat else ((q 0 * cellsAlong g 1 + q 1) * cellsAlong g 2 + q 2).toNat

/-- The draws of rank `r` that count: those that hit a site of the rank, as many as it makes attempts. -/
def counted (w : World) (sub : Nat) (r : Int) (draws : List Draw) : List Draw :=
  (draws.filter fun q : Draw => ¬ siteOutside (w.shape r) (site (w.shape r) (q.1 % (numCells (w.shape r)).toNat : Nat) sub)).take (numFlips (w.shape r) sub)

/-- The draw with which the serial program attempts the same site in the same way. -/
def reaim (w : World) (sub : Nat) (r : Int) (q : Draw) : Draw :=
  (cellIndex w.serial (site (w.shape r) (q.1 % (numCells (w.shape r)).toNat : Nat) sub), q.2)

/-- The draws of all ranks, one rank after the other. -/
def serialDraws (w : World) (order : List Nat) (sub : Nat) (draws : Int → List Draw) : List Draw :=
  order.flatMap fun r : Nat => (counted w sub r (draws r)).map (reaim w sub r)

/-- The number of attempts of all ranks together. -/
def attempts (w : World) (order : List Nat) (sub : Nat) : Nat := (order.map fun r : Nat => numFlips (w.shape r) sub).sum

/-- The serial program, with the number of attempts per sublattice as an argument. -/
def updateWith (g : Shape) (lo hi : Nat → Int) (select : (Nat → Int) → Nat → Bool) (hot : ℚ → Nat → Bool) (count : Nat → Nat) (draws : Nat → Nat → List Draw) (steps : Nat)
    (data : Int → Int) : Outcome (Option (Int → Int)) :=
  (List.range steps).foldlM (fun o (step : Nat) => (List.range (numSublattices g.dim)).foldlM
    (fun o (sub : Nat) => andThen (pass .serial g lo hi select hot sub (count sub) (draws step sub)) o) o) (some data)

/-- It is the serial program if the number of attempts is the one computed there. -/
theorem update_eq_with (g : Shape) (lo hi : Nat → Int) (select : (Nat → Int) → Nat → Bool) (hot : ℚ → Nat → Bool) (draws : Nat → Nat → List Draw) (steps : Nat) (data : Int → Int) :
    update g lo hi select hot draws steps data = updateWith g lo hi select hot (numFlips g) draws steps data := rfl

/-- Every cell of every rank, ghost or not, has the spin that the node it wraps to has in `σ`. -/
def AllSynced (w : World) (np : Nat) (D : Int → Int → Int) (σ : Int → Int) : Prop :=
  ∀ r, IsRank np r → ∀ x, (w.shape r).IsCell x → ∀ y, w.serial.IsNode y → Wraps w.toSetup x y → cellAt (w.shape r) (D r) x = cellAt w.serial σ y

/-- The situation of the sublattice exchange (C12) and of the loops: two or three axes, one ghost layer, even side lengths; the selection looks at the coordinates of the site. -/
structure LatticeOk (w : World) (np : Nat) (select : (Nat → Int) → Nat → Bool) : Prop where
  world : w.Ok np
  dim : w.d = 2 ∨ w.d = 3
  one : w.ghosts = 1
  even : ∀ j, j < w.d → 2 ∣ w.g1 j - w.g0 j
  select : ∀ x y n, (∀ j < w.d, x j = y j) → select x n = select y n

/-! ## The cell of a site -/

theorem cellIndex_spec {g : Shape} (hg : g.Wf) (hdim : g.dim = 2 ∨ g.dim = 3) {x : Nat → Int} (hx : g.IsNode x) {sub : Nat} (hc : Colour g.dim sub x) :
    (cellIndex g x : Int) < numCells g ∧ ∀ i < g.dim, site g (cellIndex g x) sub i = x i := by
  have hq : ∀ i < g.dim, 0 ≤ (x i - start g i) / 2 ∧ (x i - start g i) / 2 < cellsAlong g i ∧ x i = start g i + 2 * ((x i - start g i) / 2) + bit g.dim sub i := by
    intro i hi
    have h1 := start_even g i
    have h2 := hc i hi
    have h3 := hx i hi
    have h4 := hg.side i hi
    refine ⟨by omega, ?_, by omega⟩
    rw [cellsAlong_eq g (by omega)]
    split_ifs <;> omega
  unfold cellIndex
  dsimp only
  rcases hdim with h | h
  · have a0 := hq 0 (by omega); have a1 := hq 1 (by omega)
    rw [if_pos h]
    generalize (x 0 - start g 0) / 2 = q0 at a0
    generalize (x 1 - start g 1) / 2 = q1 at a1
    have hm := mixed2 a1.1 a1.2.1 a0.1
    have hnn : 0 ≤ q0 * cellsAlong g 1 + q1 := by have := mul_nonneg a0.1 (by omega : 0 ≤ cellsAlong g 1); omega
    rw [Int.toNat_of_nonneg hnn]
    refine ⟨?_, fun i hi => ?_⟩
    · rw [numCells_two h]
      have := mul_le_mul_of_nonneg_right (by omega : q0 + 1 ≤ cellsAlong g 0) (by omega : 0 ≤ cellsAlong g 1)
      rw [add_mul, one_mul] at this
      omega
    · unfold site cellCoord
      rw [if_pos h]
      have hi' : i = 0 ∨ i = 1 := by omega
      rcases hi' with rfl | rfl
      · rw [if_neg (by decide), hm.2]; exact a0.2.2.symm
      · rw [if_pos rfl, hm.1]; exact a1.2.2.symm
  · have a0 := hq 0 (by omega); have a1 := hq 1 (by omega); have a2 := hq 2 (by omega)
    rw [if_neg (by omega)]
    generalize (x 0 - start g 0) / 2 = q0 at a0
    generalize (x 1 - start g 1) / 2 = q1 at a1
    generalize (x 2 - start g 2) / 2 = q2 at a2
    have hn1 : 0 ≤ q0 * cellsAlong g 1 + q1 := by have := mul_nonneg a0.1 (by omega : 0 ≤ cellsAlong g 1); omega
    have hm := mixed2 a1.1 a1.2.1 a0.1
    have hm2 := mixed2 a2.1 a2.2.1 hn1
    have hnn : 0 ≤ (q0 * cellsAlong g 1 + q1) * cellsAlong g 2 + q2 := by have := mul_nonneg hn1 (by omega : 0 ≤ cellsAlong g 2); omega
    rw [Int.toNat_of_nonneg hnn]
    refine ⟨?_, fun i hi => ?_⟩
    · rw [numCells_three h]
      have e1 := mul_le_mul_of_nonneg_right (by omega : q0 + 1 ≤ cellsAlong g 0) (by omega : 0 ≤ cellsAlong g 1)
      rw [add_mul, one_mul] at e1
      have e2 := mul_le_mul_of_nonneg_right (by omega : q0 * cellsAlong g 1 + q1 + 1 ≤ cellsAlong g 0 * cellsAlong g 1) (by omega : 0 ≤ cellsAlong g 2)
      rw [add_mul, one_mul] at e2
      omega
    · unfold site cellCoord
      rw [if_neg (by omega), if_pos h, hm2.1, hm2.2, hm.1, hm.2]
      have hi' : i = 0 ∨ i = 1 ∨ i = 2 := by omega
      rcases hi' with rfl | rfl | rfl
      · rw [if_neg (by decide), if_neg (by decide)]; exact a0.2.2.symm
      · rw [if_neg (by decide), if_pos rfl]; exact a1.2.2.symm
      · rw [if_pos rfl]; exact a2.2.2.symm

/-! ## One attempt as a function of the spins around the site -/

/-- The new spin of the site, if it changes; `F o` is the spin at displacement `o`. -/
def flipTo (dim : Nat) (lo hi : Nat → Int) (select : (Nat → Int) → Nat → Bool) (hot : ℚ → Nat → Bool) (x : Nat → Int) (F : (Nat → Int) → Int) (here : Int)
    (q : Nat × Nat × Nat) : Option Int :=
  if ¬ select x q.1 then none else
  let L := (offsets (List.range dim)).filter fun o => ¬ skipped dim lo hi x (shift x o)
  let l := L.map F
  if l.countP (· == here) = l.length then none else
  match l[q.2.1 % l.length]? with
  | none => none
  | some v =>
    if here ≠ v then
      let dE := ((offsets (List.range dim)).map fun o => if ¬ skipped dim lo hi x (shift x o) then 1 / 2 * ((change here v (F o) : Int) : ℚ) else 0).sum
      if dE ≤ 0 then some v else if hot dE q.2.2 then some v else none
    else none

theorem attempt_eq {bd : Build} {g : Shape} {lo hi : Nat → Int} (hl : Local bd g lo hi) (select : (Nat → Int) → Nat → Bool) (hot : ℚ → Nat → Bool) (sub : Nat) (d : Int → Int)
    (q : Draw) {x : Nat → Int} (hxe : site g (q.1 % (numCells g).toNat : Nat) sub = x) (hx : g.IsNode x) :
    attempt bd g lo hi select hot sub d q = .ok (some (match flipTo g.dim lo hi select hot x (fun o => d (g.rawOffset (shift x o))) (d (g.rawOffset x)) q.2 with
      | none => d
      | some v => Function.update d (g.rawOffset x) v)) := by
  classical
  unfold attempt
  rw [hxe]
  dsimp only
  have ho : ¬ siteOutside g x := by rintro ⟨i, hi', h⟩; have := hx i hi'; omega
  rw [if_neg ho]
  unfold flipTo
  by_cases hs : select x q.2.1 = true
  swap
  · rw [if_pos hs, if_pos hs]
  rw [if_neg (not_not.2 hs), if_neg (not_not.2 hs)]
  obtain ⟨hc, hat, hb⟩ := node_at hl hx
  have hd : gridAt bd g d x = .ok (d (g.rawOffset x)) := by unfold gridAt deref; rw [hat]; exact if_pos hb
  have hst : ∀ v, store g d (g.atVec bd x) v = .ok (Function.update d (g.rawOffset x) v) := fun v => by rw [hat]; exact if_pos hb
  have hN : neighbors bd g lo hi d x = .ok (((offsets (List.range g.dim)).filter fun o => ¬ skipped g.dim lo hi x (shift x o)).map fun o => d (g.rawOffset (shift x o))) := by
    rw [neighbors_spec hl hx]
    congr 2
    exact List.filter_congr fun o _ => decide_eq_decide.2 Iff.rfl
  have hE : ∀ a b, energyChange bd g lo hi d x a b = .ok ((offsets (List.range g.dim)).map fun o =>
      if ¬ skipped g.dim lo hi x (shift x o) then 1 / 2 * ((change a b (d (g.rawOffset (shift x o))) : Int) : ℚ) else 0).sum := by
    intro a b
    rw [energyChange_eq hl hx]
    congr 2
    exact List.map_congr_left fun o _ => by unfold Adm; congr
  rw [hd, Outcome.ok_bind, hN, Outcome.ok_bind]
  dsimp only
  generalize hll : (((offsets (List.range g.dim)).filter fun o => ¬ skipped g.dim lo hi x (shift x o)).map fun o => d (g.rawOffset (shift x o))) = l
  by_cases hcount : l.countP (· == d (g.rawOffset x)) = l.length
  · rw [if_pos hcount, if_pos hcount]
  rw [if_neg hcount, if_neg hcount]
  have hlen : 0 < l.length := by
    by_contra h0
    have : l = [] := List.eq_nil_of_length_eq_zero (by omega)
    rw [this] at hcount
    simp at hcount
  have hlt := Nat.mod_lt q.2.2.1 hlen
  rw [List.getElem?_eq_getElem hlt]
  dsimp only
  generalize l[q.2.2.1 % l.length] = v
  by_cases hne : d (g.rawOffset x) ≠ v
  · rw [if_pos hne, if_pos hne, hE, Outcome.ok_bind, hst, Outcome.ok_bind]
    split_ifs <;> rfl
  · rw [if_neg hne, if_neg hne]

theorem flipTo_congr {dim : Nat} {lo hi : Nat → Int} {select : (Nat → Int) → Nat → Bool} {hot : ℚ → Nat → Bool} {x y : Nat → Int} {F G : (Nat → Int) → Int} {here : Int}
    {q : Nat × Nat × Nat} (hsel : ∀ n, select x n = select y n) (hxy : ∀ j < dim, x j = y j)
    (hFG : ∀ o ∈ offsets (List.range dim), ¬ skipped dim lo hi x (shift x o) → F o = G o) :
    flipTo dim lo hi select hot x F here q = flipTo dim lo hi select hot y G here q := by
  classical
  have hsk : ∀ o, skipped dim lo hi x (shift x o) ↔ skipped dim lo hi y (shift y o) := by
    intro o
    unfold skipped shift
    constructor
    · rintro (h | ⟨i, hi', h⟩)
      · exact Or.inl fun i hi' => by have := h i hi'; have := hxy i hi'; omega
      · exact Or.inr ⟨i, hi', by have := hxy i hi'; omega⟩
    · rintro (h | ⟨i, hi', h⟩)
      · exact Or.inl fun i hi' => by have := h i hi'; have := hxy i hi'; omega
      · exact Or.inr ⟨i, hi', by have := hxy i hi'; omega⟩
  have e1 : (((offsets (List.range dim)).filter fun o => ¬ skipped dim lo hi x (shift x o)).map F) =
      (((offsets (List.range dim)).filter fun o => ¬ skipped dim lo hi y (shift y o)).map G) := by
    have : ((offsets (List.range dim)).filter fun o => ¬ skipped dim lo hi y (shift y o)) = ((offsets (List.range dim)).filter fun o => ¬ skipped dim lo hi x (shift x o)) :=
      List.filter_congr fun o _ => by simp only [hsk o]
    rw [this]
    refine List.map_congr_left fun o ho => ?_
    rw [List.mem_filter, decide_eq_true_iff] at ho
    exact hFG o ho.1 ho.2
  have e2 : ∀ v, ((offsets (List.range dim)).map fun o => if ¬ skipped dim lo hi x (shift x o) then 1 / 2 * ((change here v (F o) : Int) : ℚ) else 0).sum =
      ((offsets (List.range dim)).map fun o => if ¬ skipped dim lo hi y (shift y o) then 1 / 2 * ((change here v (G o) : Int) : ℚ) else 0).sum := by
    intro v
    congr 1
    refine List.map_congr_left fun o ho => ?_
    by_cases h : skipped dim lo hi x (shift x o)
    · rw [if_neg (not_not.2 h), if_neg (not_not.2 ((hsk o).1 h))]
    · rw [if_pos h, if_pos fun h' => h ((hsk o).2 h'), hFG o ho h]
  unfold flipTo
  dsimp only
  rw [hsel, e1]
  simp only [e2]

/-! ## One attempt on a rank and in the serial program -/

section
variable {w : World} {np : Nat} {select : (Nat → Int) → Nat → Bool} {hot : ℚ → Nat → Bool} {sub : Nat}

theorem local_rank (h : LatticeOk w np select) {r : Int} (hr : IsRank np r) : Local .mpi (w.shape r) w.g0 w.g1 := by
  refine local_mpi (shape_wf h.world hr) (by show 1 ≤ w.ghosts; rw [h.one]) (fun i hi => ?_) (fun i hi => ?_)
  · by_cases e : (w.shape r).x0 i = w.g0 i
    · exact Or.inl e
    · have := (rank_room h.world hr hi).1
      exact Or.inr ⟨by omega, if_pos e⟩
  · by_cases e : (w.shape r).x1 i = w.g1 i
    · exact Or.inl e
    · have := (rank_room h.world hr hi).2.1
      exact Or.inr ⟨by omega, if_pos e⟩

theorem local_whole (h : LatticeOk w np select) : Local .serial w.serial w.g0 w.g1 := local_serial .serial (serial_wf h.world)

/-- Within a turn: the cells of the rank agree with the serial field, except for the ghosts of the sublattice. -/
def Ag (w : World) (sub : Nat) (r : Int) (d σ : Int → Int) : Prop :=
  ∀ y, (w.shape r).IsCell y → ∀ z, w.serial.IsNode z → Wraps w.toSetup y z → (w.shape r).IsNode y ∨ ¬ Colour w.d sub y → cellAt (w.shape r) d y = cellAt w.serial σ z

theorem node_whole (h : LatticeOk w np select) {r : Int} (hr : IsRank np r) {x : Nat → Int} (hx : (w.shape r).IsNode x) : w.serial.IsNode x :=
  fun j hj => isNode_global h.world.setup hr (x := x) hx j hj

theorem node_cell (h : LatticeOk w np select) {r : Int} {x : Nat → Int} (hx : (w.shape r).IsNode x) : (w.shape r).IsCell x := fun j hj => by
  have h1 := hx j hj
  have h2 : (w.shape r).ghosts = 1 := h.one
  omega

theorem whole_cell {x : Nat → Int} (hx : w.serial.IsNode x) : w.serial.IsCell x := fun j hj => by
  have h1 := hx j hj
  have h2 : w.serial.ghosts = 0 := rfl
  omega

theorem whole_wraps {y z : Nat → Int} (hy : w.serial.IsNode y) (hz : w.serial.IsNode z) (hw : Wraps w.toSetup y z) : ∀ j < w.d, y j = z j := by
  intro j hj
  have h1 : w.g0 j ≤ y j ∧ y j < w.g1 j := hy j hj
  have h2 : w.g0 j ≤ z j ∧ z j < w.g1 j := hz j hj
  have := Int.eq_zero_of_abs_lt_dvd (hw j hj) (by rw [abs_lt]; omega)
  omega

theorem wraps_colour (h : LatticeOk w np select) {y z : Nat → Int} (hw : Wraps w.toSetup y z) (hz : Colour w.d sub z) : Colour w.d sub y := by
  intro i hi
  have h1 := dvd_trans (h.even i hi) (hw i hi)
  have h2 := hz i hi
  omega

/-- A spin set at a node `x` of rank `r`, in its array and in the serial one. -/
theorem Ag.set (h : LatticeOk w np select) {r : Int} (hr : IsRank np r) {d σ : Int → Int} (ha : Ag w sub r d σ) {x x' : Nat → Int} (hx : (w.shape r).IsNode x)
    (hcol : Colour w.d sub x) (he : ∀ j < w.d, x' j = x j) (v : Int) :
    Ag w sub r (Function.update d ((w.shape r).rawOffset x) v) (Function.update σ (w.serial.rawOffset x') v) := by
  have hx' : w.serial.rawOffset x' = w.serial.rawOffset x := rawOffset_congr fun j hj => he j hj
  rw [hx']
  intro y hy z hz hw hc
  have hxs := node_whole h hr hx
  unfold cellAt
  by_cases e : (w.shape r).rawOffset y = (w.shape r).rawOffset x
  · have hs := Shape.rawOffset_inj hy (node_cell h hx) e
    have hzx : ∀ j < w.d, x j = z j := whole_wraps hxs hz fun j hj => by have := hw j hj; rw [hs j hj] at this; exact this
    rw [e, Function.update_self, rawOffset_congr (g := w.serial) (x := z) (y := x) fun j hj => (hzx j hj).symm, Function.update_self]
  · rw [Function.update_of_ne e]
    have e2 : w.serial.rawOffset z ≠ w.serial.rawOffset x := by
      intro e2
      have hs := Shape.rawOffset_inj (whole_cell hz) (whole_cell hxs) e2
      have hwx : Wraps w.toSetup y x := fun j hj => by have := hw j hj; rw [hs j hj] at this; exact this
      rcases hc with hn | hn
      · have := (wraps_nodes h.world.setup hr hr (x := y) (y := x) hn hx hwx).2
        exact e (rawOffset_congr this)
      · exact hn (wraps_colour h hwx hcol)
    rw [Function.update_of_ne e2]
    exact ha y hy z hz hw hc

/-- Another rank does not notice. -/
theorem Ag.other (h : LatticeOk w np select) {r s : Int} (hr : IsRank np r) (hs : IsRank np s) (hne : s ≠ r) {d σ : Int → Int} (ha : Ag w sub s d σ) {x x' : Nat → Int}
    (hx : (w.shape r).IsNode x) (hcol : Colour w.d sub x) (he : ∀ j < w.d, x' j = x j) (v : Int) : Ag w sub s d (Function.update σ (w.serial.rawOffset x') v) := by
  have hx' : w.serial.rawOffset x' = w.serial.rawOffset x := rawOffset_congr fun j hj => he j hj
  rw [hx']
  intro y hy z hz hw hc
  have hxs := node_whole h hr hx
  unfold cellAt
  have e2 : w.serial.rawOffset z ≠ w.serial.rawOffset x := by
    intro e2
    have hs' := Shape.rawOffset_inj (whole_cell hz) (whole_cell hxs) e2
    have hwx : Wraps w.toSetup y x := fun j hj => by have := hw j hj; rw [hs' j hj] at this; exact this
    rcases hc with hn | hn
    · exact hne (wraps_nodes h.world.setup hs hr (x := y) (y := x) hn hx hwx).1
    · exact hn (wraps_colour h hwx hcol)
  rw [Function.update_of_ne e2]
  exact ha y hy z hz hw hc

/-- An attempt of rank `r` and the serial attempt at the same site have the same effect. -/
theorem attempt_both (h : LatticeOk w np select) {r : Int} (hr : IsRank np r) {d σ : Int → Int} (ha : Ag w sub r d σ) (q : Draw)
    (hin : ¬ siteOutside (w.shape r) (site (w.shape r) (q.1 % (numCells (w.shape r)).toNat : Nat) sub)) :
    ∃ d' σ', attempt .mpi (w.shape r) w.g0 w.g1 select hot sub d q = .ok (some d') ∧
      attempt .serial w.serial w.g0 w.g1 select hot sub σ (reaim w sub r q) = .ok (some σ') ∧ Ag w sub r d' σ' ∧
      ∀ s, IsRank np s → s ≠ r → ∀ e, Ag w sub s e σ → Ag w sub s e σ' := by
  have hcol : Colour w.d sub (site (w.shape r) (q.1 % (numCells (w.shape r)).toNat : Nat) sub) := site_colour (w.shape r) _ sub
  generalize hxe : site (w.shape r) (q.1 % (numCells (w.shape r)).toNat : Nat) sub = x at hin hcol
  have hx : (w.shape r).IsNode x := fun i hi' => by
    by_contra hc; exact hin ⟨i, hi', by omega⟩
  have hxs := node_whole h hr hx
  obtain ⟨hlt, hsite⟩ := cellIndex_spec (serial_wf h.world) h.dim hxs (sub := sub) hcol
  have hmod : (reaim w sub r q).1 % (numCells w.serial).toNat = cellIndex w.serial x := by
    unfold reaim
    rw [hxe]
    exact Nat.mod_eq_of_lt (by omega)
  have hx's : w.serial.IsNode (site w.serial (cellIndex w.serial x) sub) := fun j hj => by rw [hsite j hj]; exact hxs j hj
  have hself : cellAt (w.shape r) d x = cellAt w.serial σ x := ha x (node_cell h hx) x hxs (fun j _ => by simp) (Or.inl hx)
  have e1 := attempt_eq (local_rank h hr) select hot sub d q hxe hx
  have e2 := attempt_eq (local_whole h) select hot sub σ (reaim w sub r q) (by rw [hmod]) hx's
  have hraw : w.serial.rawOffset (site w.serial (cellIndex w.serial x) sub) = w.serial.rawOffset x := rawOffset_congr hsite
  have e3 : flipTo w.serial.dim w.g0 w.g1 select hot (site w.serial (cellIndex w.serial x) sub)
      (fun o => σ (w.serial.rawOffset (shift (site w.serial (cellIndex w.serial x) sub) o))) (σ (w.serial.rawOffset (site w.serial (cellIndex w.serial x) sub))) (reaim w sub r q).2 =
      flipTo (w.shape r).dim w.g0 w.g1 select hot x (fun o => d ((w.shape r).rawOffset (shift x o))) (d ((w.shape r).rawOffset x)) q.2 := by
    have hh : d ((w.shape r).rawOffset x) = σ (w.serial.rawOffset x) := hself
    rw [hraw, hh]
    symm
    refine flipTo_congr (fun n => h.select _ _ n fun j hj => (hsite j hj).symm) (fun j hj => (hsite j hj).symm) fun o ho hsk => ?_
    have hno := ((mem_offsets List.nodup_range).1 ho).1
    have hbox := (adm_iff (g := w.shape r)).1 hsk
    have hcell := ((local_rank h hr).plain x hx o hno hbox.2).1
    have hnode : w.serial.IsNode (shift x o) := fun j hj => hbox.2 j hj
    have := ha (shift x o) hcell (shift x o) hnode (fun j _ => by simp) (Or.inr fun hc => by
      obtain ⟨i, hi, h0⟩ := hbox.1
      exact h0 (colour_apart hcol hno hc i hi))
    unfold cellAt at this
    rw [this]
    exact congrArg σ (rawOffset_congr fun j hj => by unfold shift; rw [hsite j hj])
  rw [e3] at e2
  refine ⟨_, _, e1, e2, ?_, ?_⟩
  · cases flipTo (w.shape r).dim w.g0 w.g1 select hot x (fun o => d ((w.shape r).rawOffset (shift x o))) (d ((w.shape r).rawOffset x)) q.2 with
    | none => exact ha
    | some v => exact ha.set h hr hx hcol hsite v
  · intro s hs hne e hea
    cases flipTo (w.shape r).dim w.g0 w.g1 select hot x (fun o => d ((w.shape r).rawOffset (shift x o))) (d ((w.shape r).rawOffset x)) q.2 with
    | none => exact hea
    | some v => exact hea.other h hr hs hne hx hcol hsite v

/-! ## One turn -/

/-- The loop of rank `r`, and the same attempts made by the serial program. -/
theorem pass_both (h : LatticeOk w np select) {r : Int} (hr : IsRank np r) (draws : List Draw) (k : Nat) {d σ d' : Int → Int} (ha : Ag w sub r d σ)
    (hp : pass .mpi (w.shape r) w.g0 w.g1 select hot sub k draws d = .ok (some d')) :
    ∃ σ', (∀ m rest, pass .serial w.serial w.g0 w.g1 select hot sub (k + m)
        ((((draws.filter fun q : Draw => ¬ siteOutside (w.shape r) (site (w.shape r) (q.1 % (numCells (w.shape r)).toNat : Nat) sub)).take k).map (reaim w sub r)) ++ rest) σ =
        pass .serial w.serial w.g0 w.g1 select hot sub m rest σ') ∧ Ag w sub r d' σ' ∧
      ∀ s, IsRank np s → s ≠ r → ∀ e, Ag w sub s e σ → Ag w sub s e σ' := by
  induction draws generalizing k d σ with
  | nil =>
    cases k with
    | zero =>
      rw [pass] at hp
      cases hp
      exact ⟨σ, fun m rest => by simp, ha, fun _ _ _ _ h => h⟩
    | succ k => rw [pass] at hp; cases hp
  | cons q qs ih =>
    cases k with
    | zero =>
      rw [pass] at hp
      cases hp
      exact ⟨σ, fun m rest => by simp, ha, fun _ _ _ _ h => h⟩
    | succ k =>
      rw [pass] at hp
      by_cases hin : siteOutside (w.shape r) (site (w.shape r) (q.1 % (numCells (w.shape r)).toNat : Nat) sub)
      · rw [List.filter_cons_of_neg (by simpa using hin)]
        rcases attempt_cases (local_rank h hr) select hot sub d q with ⟨-, e⟩ | ⟨hn, -⟩
        · rw [e, Outcome.ok_bind] at hp
          exact ih (k + 1) ha hp
        · exact absurd hin hn
      · rw [List.filter_cons_of_pos (by simpa using hin), List.take_succ_cons, List.map_cons]
        obtain ⟨d1, σ1, e1, e2, ha1, ho1⟩ := attempt_both (hot := hot) h hr ha q hin
        rw [e1, Outcome.ok_bind] at hp
        obtain ⟨σ', hs, ha', ho'⟩ := ih k ha1 hp
        refine ⟨σ', fun m rest => ?_, ha', fun s hs hne e he => ho' s hs hne e (ho1 s hs hne e he)⟩
        rw [show k + 1 + m = (k + m) + 1 by omega, List.cons_append, pass, e2, Outcome.ok_bind]
        exact hs m rest

/-- The loops of several ranks, and the same attempts made by the serial program, rank after rank. -/
theorem ranks_both (h : LatticeOk w np select) (draws : Int → List Draw) {D D' : Int → Int → Int} (order : List Nat) (hnd : order.Nodup) (hlt : ∀ r ∈ order, r < np)
    (hp : ∀ r ∈ order, pass .mpi (w.shape r) w.g0 w.g1 select hot sub (numFlips (w.shape r) sub) (draws r) (D r) = .ok (some (D' r))) {σ : Int → Int}
    (ha : ∀ r ∈ order, Ag w sub r (D r) σ) :
    ∃ σ', (∀ m rest, pass .serial w.serial w.g0 w.g1 select hot sub (attempts w order sub + m) (serialDraws w order sub draws ++ rest) σ =
        pass .serial w.serial w.g0 w.g1 select hot sub m rest σ') ∧ (∀ r ∈ order, Ag w sub r (D' r) σ') ∧
      ∀ s, IsRank np s → (∀ r ∈ order, s ≠ (r : Int)) → ∀ e, Ag w sub s e σ → Ag w sub s e σ' := by
  induction order generalizing σ with
  | nil => exact ⟨σ, fun m rest => by simp [attempts, serialDraws], by simp, fun _ _ _ _ h => h⟩
  | cons r order ih =>
    have hr : IsRank np (r : Int) := ⟨by omega, by have := hlt r (by simp); omega⟩
    rw [List.nodup_cons] at hnd
    obtain ⟨σ1, hs1, ha1, ho1⟩ := pass_both (hot := hot) h hr (draws r) _ (ha r (by simp)) (hp r (by simp))
    have hdiff : ∀ s ∈ order, s ≠ r := fun s hs e => hnd.1 (e ▸ hs)
    obtain ⟨σ', hs, ha', ho'⟩ := ih hnd.2 (fun s hs => hlt s (by simp [hs])) (fun s hs => hp s (by simp [hs])) (σ := σ1)
      (fun s hs => ho1 s ⟨by omega, by have := hlt s (by simp [hs]); omega⟩ (by exact_mod_cast hdiff s hs) _ (ha s (by simp [hs])))
    refine ⟨σ', fun m rest => ?_, ?_, ?_⟩
    · have := hs1 (attempts w order sub + m) (serialDraws w order sub draws ++ rest)
      rw [hs m rest] at this
      rw [← this]
      simp only [attempts, serialDraws, counted, List.map_cons, List.sum_cons, List.flatMap_cons, List.append_assoc, add_assoc]
    · intro s hs
      rcases List.mem_cons.1 hs with rfl | hs
      · exact ho' s hr (fun t ht e => hdiff t ht (by exact_mod_cast e.symm)) _ ha1
      · exact ha' s hs
    · intro s hs hne e he
      exact ho' s hs (fun t ht => hne t (by simp [ht])) e (ho1 s hs (hne r (by simp)) e he)

theorem onSub_iff {d s : Nat} {x : Nat → Int} : OnSub d (s : Int) x ↔ Colour d s x := by
  unfold OnSub Colour subBit bit
  push_cast
  exact Iff.rfl

/-- The array of a rank after its loop still holds spins that can be sent. -/
theorem pass_valid {c : Cell Int} (h : LatticeOk w np select) {r : Int} (hr : IsRank np r) {k : Nat} {draws : List Draw} {d d' : Int → Int}
    (hv : ∀ o, 0 ≤ o → o < (w.shape r).cells → c.Valid (d o)) (hp : pass .mpi (w.shape r) w.g0 w.g1 select hot sub k draws d = .ok (some d')) :
    ∀ o, 0 ≤ o → o < (w.shape r).cells → c.Valid (d' o) := by
  have hl := local_rank h hr
  obtain ⟨o', e, hev⟩ := pass_spec hl select hot sub k draws d
  rw [hp] at e
  cases e
  have ev := hev d' rfl
  intro o h0 h1
  by_cases hne : d' o = d o
  · rw [hne]; exact hv o h0 h1
  · obtain ⟨x, hx, hc, rfl⟩ := ev.colour o hne
    rcases ev.value x hx hc with e | ⟨q, hq, ha, e⟩
    · rw [e]; exact hv _ h0 h1
    · rw [e]
      have hb := Shape.rawOffset_bounds hl.wf (plain_at hl hx hq ha d).1
      exact hv _ hb.1 hb.2

/-- The ranks run, with arrays that agree with `σ` everywhere. -/
def Good (c : Cell Int) (w : World) (np : Nat) (S : Int → Outcome (RankSt Int)) (σ : Int → Int) : Prop :=
  ∃ D, Running np S D ∧ AllValid c w.toSetup np D ∧ AllSynced w np D σ

/-- Enough of what rank `r` draws hits its sites. -/
def Enough (w : World) (sub : Nat) (r : Int) (draws : List Draw) : Prop :=
  numFlips (w.shape r) sub ≤ (draws.filter fun q : Draw => ¬ siteOutside (w.shape r) (site (w.shape r) (q.1 % (numCells (w.shape r)).toNat : Nat) sub)).length

theorem rankPass_eq {draws : Int → List Draw} {S : Int → Outcome (RankSt Int)} {r : Int} {d : Int → Int} {n : Nat} (hS : S r = .ok ⟨d, n⟩) {o : Option (Int → Int)}
    (hp : pass .mpi (w.shape r) w.g0 w.g1 select hot sub (numFlips (w.shape r) sub) (draws r) d = .ok o) :
    rankPass w select hot sub draws S r = .ok (o.map fun d => ⟨d, n⟩) := by
  unfold rankPass
  rw [hS, Outcome.ok_bind, hp, Outcome.ok_bind]

theorem turn_good {c : Cell Int} (hc : RoundTrips c) (h : LatticeOk w np select) (hsub : sub < 2 ^ w.d) {order : List Nat} (hord : order.Perm (List.range np)) {draws : Int → List Draw}
    (hen : ∀ r, IsRank np r → Enough w sub r (draws r)) {S : Int → Outcome (RankSt Int)} {σ : Int → Int} (hg : Good c w np S σ) :
    ∃ S' σ', turn c w np select hot sub draws S = some S' ∧ Good c w np S' σ' ∧
      pass .serial w.serial w.g0 w.g1 select hot sub (attempts w order sub) (serialDraws w order sub draws) σ = .ok (some σ') := by
  obtain ⟨D, hR, hV, hY⟩ := hg
  have hex : ∀ r : Int, ∃ d', IsRank np r → pass .mpi (w.shape r) w.g0 w.g1 select hot sub (numFlips (w.shape r) sub) (draws r) (D r) = .ok (some d') := by
    intro r
    by_cases hr : IsRank np r
    · obtain ⟨d', e⟩ := (pass_ends_iff (local_rank h hr) select hot sub _ (draws r) (D r)).2 (hen r hr)
      exact ⟨d', fun _ => e⟩
    · exact ⟨D r, fun h => absurd h hr⟩
  choose D' hD' using hex
  have hrp : ∀ r, IsRank np r → ∃ n, rankPass w select hot sub draws S r = .ok (some ⟨D' r, n⟩) := by
    intro r hr
    obtain ⟨n, e⟩ := hR r hr
    exact ⟨n, rankPass_eq e (hD' r hr)⟩
  have hall : ((List.range np).all fun r : Nat => ended (rankPass w select hot sub draws S r)) = true := by
    rw [List.all_eq_true]
    intro r hr
    rw [List.mem_range] at hr
    obtain ⟨n, e⟩ := hrp r ⟨by omega, by omega⟩
    rw [e]; rfl
  have hRun : Running np (fun r => (rankPass w select hot sub draws S r).bind fun o => match o with | some st => .ok st | none => .ub) D' := by
    intro r hr
    obtain ⟨n, e⟩ := hrp r hr
    exact ⟨n, by dsimp only; rw [e, Outcome.ok_bind]⟩
  have hVal : AllValid c w.toSetup np D' := fun r hr => pass_valid h hr (hV r hr) (hD' r hr)
  have hso : SubOk w.toSetup np (sub : Int) := ⟨h.world.setup, h.dim, h.one, h.even, by omega, by exact_mod_cast hsub⟩
  obtain ⟨D2, hR2, hV2, hG2⟩ := swap_correct hc h.world.setup (subPlan_ok hso) hRun hVal
  have hmem : ∀ r : Nat, r ∈ order ↔ r < np := fun r => by rw [hord.mem_iff, List.mem_range]
  obtain ⟨σ', hs, ha', -⟩ := ranks_both (hot := hot) h draws (D := D) (D' := D') order (hord.nodup_iff.2 List.nodup_range) (fun r hr => (hmem r).1 hr)
    (fun r hr => hD' r ⟨by omega, by have := (hmem r).1 hr; omega⟩) (σ := σ)
    (fun r hr y hy z hz hw _ => hY r ⟨by omega, by have := (hmem r).1 hr; omega⟩ y hy z hz hw)
  have hag : ∀ r, IsRank np r → Ag w sub r (D' r) σ' := by
    intro r hr
    have := ha' r.toNat ((hmem _).2 (by have := hr.1; have := hr.2; omega))
    rwa [Int.toNat_of_nonneg hr.1] at this
  refine ⟨_, σ', if_pos hall, ⟨D2, hR2, hV2, ?_⟩, ?_⟩
  · intro r hr x hx y hy hw
    by_cases hcol : Colour w.d sub x
    · obtain ⟨t, ht, hyt⟩ := owner h.world hy
      have e1 : cellAt (w.shape r) (D2 r) x = cellAt (w.shape t) (D' t) y := (hG2 r hr x hx).1 (onSub_iff.2 hcol) t ht y hyt hw
      rw [e1]
      exact hag t ht y (node_cell h hyt) y hy (fun j _ => by simp) (Or.inl hyt)
    · have e1 : cellAt (w.shape r) (D2 r) x = cellAt (w.shape r) (D' r) x := (hG2 r hr x hx).2 fun hn => hcol (onSub_iff.1 hn)
      rw [e1]
      exact hag r hr x hx y hy hw (Or.inr hcol)
  · have := hs 0 []
    rw [List.append_nil, Nat.add_zero] at this
    rw [this, pass]

theorem turn_stuck {c : Cell Int} (h : LatticeOk w np select) {draws : Int → List Draw} {r : Int} (hr : IsRank np r) (hen : ¬ Enough w sub r (draws r))
    {S : Int → Outcome (RankSt Int)} {D : Int → Int → Int} (hR : Running np S D) : turn c w np select hot sub draws S = none := by
  refine if_neg fun hall => ?_
  rw [List.all_eq_true] at hall
  have := hall r.toNat (List.mem_range.2 (by have := hr.1; have := hr.2; omega))
  rw [Int.toNat_of_nonneg hr.1] at this
  obtain ⟨n, e⟩ := hR r hr
  obtain ⟨o, ho, -⟩ := pass_spec (local_rank h hr) select hot sub (numFlips (w.shape r) sub) (draws r) (D r)
  rw [rankPass_eq e ho] at this
  cases o with
  | none => simp [ended] at this
  | some d' => exact hen ((pass_ends_iff (local_rank h hr) select hot sub _ (draws r) (D r)).1 ⟨d', ho⟩)

end

/-! ## The whole of `update` -/

theorem fold_good {St : Type} {G : St → (Int → Int) → Prop} (l : List Nat) {f : Nat → St → Option St} {F : Nat → Option (Int → Int) → Outcome (Option (Int → Int))} {E : Nat → Prop}
    (hyes : ∀ a ∈ l, E a → ∀ S σ, G S σ → ∃ S' σ', f a S = some S' ∧ G S' σ' ∧ F a (some σ) = .ok (some σ')) (hno : ∀ a ∈ l, ¬ E a → ∀ S σ, G S σ → f a S = none) {S : St}
    {σ : Int → Int} (hg : G S σ) :
    ((∀ a ∈ l, E a) → ∃ S' σ', l.foldlM (fun S a => f a S) S = some S' ∧ G S' σ' ∧ l.foldlM (fun o a => F a o) (some σ) = .ok (some σ')) ∧
      (¬ (∀ a ∈ l, E a) → l.foldlM (fun S a => f a S) S = none) := by
  induction l generalizing S σ with
  | nil => exact ⟨fun _ => ⟨S, σ, rfl, hg, rfl⟩, fun h => absurd (by simp) h⟩
  | cons a l ih =>
    by_cases ha : E a
    · obtain ⟨S1, σ1, e1, hg1, e2⟩ := hyes a (by simp) ha S σ hg
      have := ih (fun b hb => hyes b (by simp [hb])) (fun b hb => hno b (by simp [hb])) hg1
      rw [List.foldlM_cons, List.foldlM_cons, e1, e2, Outcome.bind_eq, Outcome.ok_bind, Option.bind_eq_bind, Option.bind_some]
      exact ⟨fun h => this.1 fun b hb => h b (by simp [hb]), fun h => this.2 fun hb => h (by simpa [ha] using hb)⟩
    · refine ⟨fun h => absurd (h a (by simp)) ha, fun _ => ?_⟩
      rw [List.foldlM_cons, hno a (by simp) ha S σ hg]
      rfl

theorem numSublattices_eq {d : Nat} (h : d = 2 ∨ d = 3) : numSublattices d = 2 ^ d := by rcases h with rfl | rfl <;> rfl

section
variable {w : World} {np : Nat} {select : (Nat → Int) → Nat → Bool} {c : Cell Int}

theorem update_both (hot : ℚ → Nat → Bool) (hc : RoundTrips c) (h : LatticeOk w np select) {order : List Nat} (hord : order.Perm (List.range np)) (draws : Int → Nat → Nat → List Draw)
    (steps : Nat) {S : Int → Outcome (RankSt Int)} {D0 : Int → Int → Int} (hS : Running np S D0) (hv : AllValid c w.toSetup np D0) {σ : Int → Int}
    (hσ : ∀ r, IsRank np r → ∀ x, (w.shape r).IsNode x → cellAt (w.shape r) (D0 r) x = cellAt w.serial σ x) :
    ((∀ step < steps, ∀ sub < numSublattices w.d, ∀ r, IsRank np r → Enough w sub r (draws r step sub)) →
      ∃ S' σ', updateRanks c w np select hot draws steps S = some S' ∧ Good c w np S' σ' ∧
        updateWith w.serial w.g0 w.g1 select hot (attempts w order) (fun step sub => serialDraws w order sub fun r => draws r step sub) steps σ = .ok (some σ')) ∧
    (¬ (∀ step < steps, ∀ sub < numSublattices w.d, ∀ r, IsRank np r → Enough w sub r (draws r step sub)) → updateRanks c w np select hot draws steps S = none) := by
  obtain ⟨D, hR, hV, hG⟩ := swap_correct hc h.world.setup (fullPlan_ok h.world.setup) hS hv
  have hg : Good c w np (ghostswap fullPlan c w.toSetup S) σ := by
    refine ⟨D, hR, hV, fun r hr x hx y hy hw => ?_⟩
    obtain ⟨t, ht, hyt⟩ := owner h.world hy
    have e1 : cellAt (w.shape r) (D r) x = cellAt (w.shape t) (D0 t) y := (hG r hr x hx).1 trivial t ht y hyt hw
    rw [e1, hσ t ht y hyt]
  have inner : ∀ step, ∀ S σ, Good c w np S σ →
      ((∀ sub ∈ List.range (numSublattices w.d), ∀ r, IsRank np r → Enough w sub r (draws r step sub)) →
        ∃ S' σ', (List.range (numSublattices w.d)).foldlM (fun S sub => turn c w np select hot sub (fun r => draws r step sub) S) S = some S' ∧ Good c w np S' σ' ∧
          (List.range (numSublattices w.d)).foldlM (fun o sub => andThen (pass .serial w.serial w.g0 w.g1 select hot sub (attempts w order sub)
            (serialDraws w order sub fun r => draws r step sub)) o) (some σ) = .ok (some σ')) ∧
      (¬ (∀ sub ∈ List.range (numSublattices w.d), ∀ r, IsRank np r → Enough w sub r (draws r step sub)) →
        (List.range (numSublattices w.d)).foldlM (fun S sub => turn c w np select hot sub (fun r => draws r step sub) S) S = none) := by
    intro step S σ hg
    refine fold_good (G := Good c w np) (E := fun sub => ∀ r, IsRank np r → Enough w sub r (draws r step sub)) _ (fun sub hsub hen S σ hg => ?_) (fun sub hsub hen S σ hg => ?_) hg
    · rw [List.mem_range, numSublattices_eq h.dim] at hsub
      exact turn_good hc h hsub hord hen hg
    · have hen' : ∃ r, IsRank np r ∧ ¬ Enough w sub r (draws r step sub) := by
        by_contra hcon
        exact hen fun r hr => by
          by_contra h2
          exact hcon ⟨r, hr, h2⟩
      obtain ⟨r, hr, hne⟩ := hen'
      obtain ⟨D, hR, -⟩ := hg
      exact turn_stuck h (draws := fun r => draws r step sub) hr hne hR
  have outer := fold_good (G := Good c w np) (E := fun step => ∀ sub ∈ List.range (numSublattices w.d), ∀ r, IsRank np r → Enough w sub r (draws r step sub)) (List.range steps)
    (f := fun step S => (List.range (numSublattices w.d)).foldlM (fun S sub => turn c w np select hot sub (fun r => draws r step sub) S) S)
    (F := fun step o => (List.range (numSublattices w.d)).foldlM (fun o sub => andThen (pass .serial w.serial w.g0 w.g1 select hot sub (attempts w order sub)
            (serialDraws w order sub fun r => draws r step sub)) o) o)
    (fun step _ hen S σ hg => (inner step S σ hg).1 hen) (fun step _ hen S σ hg => (inner step S σ hg).2 hen) hg
  refine ⟨fun hen => outer.1 fun step hs sub hsub => hen step (List.mem_range.1 hs) sub (List.mem_range.1 hsub), fun hen => outer.2 fun hall => hen fun step hs sub hsub =>
    hall step (List.mem_range.2 hs) sub (List.mem_range.2 hsub)⟩

/-- **C100.** The parallel run is a serial one. Whatever the ranks draw, if all their loops end then no rank has undefined behaviour, and the spins of all ranks, ghosts included,
are those that the serial program arrives at by the same attempts: sublattice by sublattice, one rank after the other in any order, each attempt at the site that the rank had drawn
and with the same further numbers. So no attempt has seen an outdated spin. -/
theorem ranks_serialise (hot : ℚ → Nat → Bool) (hc : RoundTrips c) (h : LatticeOk w np select) {order : List Nat} (hord : order.Perm (List.range np))
    (draws : Int → Nat → Nat → List Draw) (steps : Nat) {S S' : Int → Outcome (RankSt Int)} {D0 : Int → Int → Int} (hS : Running np S D0) (hv : AllValid c w.toSetup np D0)
    {σ : Int → Int} (hσ : ∀ r, IsRank np r → ∀ x, (w.shape r).IsNode x → cellAt (w.shape r) (D0 r) x = cellAt w.serial σ x)
    (hrun : updateRanks c w np select hot draws steps S = some S') :
    ∃ D σ', Running np S' D ∧ AllSynced w np D σ' ∧
      updateWith w.serial w.g0 w.g1 select hot (attempts w order) (fun step sub => serialDraws w order sub fun r => draws r step sub) steps σ = .ok (some σ') := by
  obtain ⟨hyes, hno⟩ := update_both hot hc h hord draws steps hS hv hσ
  by_cases hen : ∀ step < steps, ∀ sub < numSublattices w.d, ∀ r, IsRank np r → Enough w sub r (draws r step sub)
  · obtain ⟨S1, σ', e, ⟨D, hR, -, hY⟩, hser⟩ := hyes hen
    rw [hrun] at e
    cases e
    exact ⟨D, σ', hR, hY, hser⟩
  · rw [hno hen] at hrun
    cases hrun

/-- **C100.** The run returns exactly if on every rank, in every turn, enough of the numbers drawn hit a site of the rank. -/
theorem ranks_return_iff (hot : ℚ → Nat → Bool) (hc : RoundTrips c) (h : LatticeOk w np select) (draws : Int → Nat → Nat → List Draw) (steps : Nat)
    {S : Int → Outcome (RankSt Int)} {D0 : Int → Int → Int} (hS : Running np S D0) (hv : AllValid c w.toSetup np D0)
    {σ : Int → Int} (hσ : ∀ r, IsRank np r → ∀ x, (w.shape r).IsNode x → cellAt (w.shape r) (D0 r) x = cellAt w.serial σ x) :
    (updateRanks c w np select hot draws steps S).isSome ↔ ∀ step < steps, ∀ sub < numSublattices w.d, ∀ r, IsRank np r → Enough w sub r (draws r step sub) := by
  obtain ⟨hyes, hno⟩ := update_both hot hc h (List.Perm.refl _) draws steps hS hv hσ
  by_cases hen : ∀ step < steps, ∀ sub < numSublattices w.d, ∀ r, IsRank np r → Enough w sub r (draws r step sub)
  · obtain ⟨S1, σ', e, -⟩ := hyes hen
    rw [e]
    exact ⟨fun _ => hen, fun _ => rfl⟩
  · rw [hno hen]
    exact ⟨fun h => by simp at h, fun h => absurd h hen⟩

theorem updateWith_invariant {g : Shape} (hg : g.Wf) (select : (Nat → Int) → Nat → Bool) (hot : ℚ → Nat → Bool) (count : Nat → Nat) (draws : Nat → Nat → List Draw) (steps : Nat)
    {P : (Int → Int) → Prop} (hP : ∀ sub k rs d d', P d → pass .serial g g.x0 g.x1 select hot sub k rs d = .ok (some d') → P d') {d d' : Int → Int} (hd : P d)
    (h : updateWith g g.x0 g.x1 select hot count draws steps d = .ok (some d')) : P d' := by
  unfold updateWith at h
  obtain ⟨o, e, ho⟩ := fold_invariant (P := P) (List.range steps) (F := fun o step => (List.range (numSublattices g.dim)).foldlM
    (fun o (sub : Nat) => andThen (pass .serial g g.x0 g.x1 select hot sub (count sub) (draws step sub)) o) o)
    (fun o step ho => fold_invariant _ (fun o sub ho => by
      cases o with
      | none => exact ⟨none, rfl, fun _ h => by cases h⟩
      | some d =>
        obtain ⟨o', e, -⟩ := pass_spec (local_serial .serial hg) select hot sub (count sub) (draws step sub) d
        exact ⟨o', e, fun d' h => hP sub _ _ d d' (ho d rfl) (by rw [← h]; exact e)⟩) o ho) (some d) (fun d' e => by cases e; exact hd)
  rw [h] at e
  cases e
  exact ho d' rfl

/-- **C100.** No new grains appear: every spin on any rank afterwards was on some rank before. -/
theorem ranks_states (hot : ℚ → Nat → Bool) (hc : RoundTrips c) (h : LatticeOk w np select) (draws : Int → Nat → Nat → List Draw) (steps : Nat)
    {S S' : Int → Outcome (RankSt Int)} {D0 : Int → Int → Int} (hS : Running np S D0) (hv : AllValid c w.toSetup np D0)
    {σ : Int → Int} (hσ : ∀ r, IsRank np r → ∀ x, (w.shape r).IsNode x → cellAt (w.shape r) (D0 r) x = cellAt w.serial σ x)
    (hrun : updateRanks c w np select hot draws steps S = some S') :
    ∃ D, Running np S' D ∧ ∀ r, IsRank np r → ∀ x, (w.shape r).IsCell x → ∃ s, IsRank np s ∧ ∃ y, (w.shape s).IsNode y ∧ cellAt (w.shape r) (D r) x = cellAt (w.shape s) (D0 s) y := by
  obtain ⟨D, σ', hR, hY, hser⟩ := ranks_serialise hot hc h (List.Perm.refl _) draws steps hS hv hσ hrun
  have hg := serial_wf h.world
  have hst : ∀ x, w.serial.IsNode x → ∃ y, w.serial.IsNode y ∧ σ' (w.serial.rawOffset x) = σ (w.serial.rawOffset y) := by
    refine updateWith_invariant hg select hot _ _ steps (P := fun d' => ∀ x, w.serial.IsNode x → ∃ y, w.serial.IsNode y ∧ d' (w.serial.rawOffset x) = σ (w.serial.rawOffset y))
      ?_ (fun x hx => ⟨x, hx, rfl⟩) hser
    intro sub k rs d1 d2 h1 h x hx
    obtain ⟨o, e, h2⟩ := pass_spec (local_serial .serial hg) select hot sub k rs d1
    rw [h] at e
    cases e
    have ev := h2 d2 rfl
    by_cases hne : d2 (w.serial.rawOffset x) = d1 (w.serial.rawOffset x)
    · rw [hne]; exact h1 x hx
    · obtain ⟨z, hz, hzc, e⟩ := ev.colour _ hne
      rw [e]
      rcases ev.value z hz hzc with e2 | ⟨o, -, ha, e2⟩
      · rw [e2]; exact h1 z hz
      · rw [e2]; exact h1 _ fun j hj => (adm_iff.1 ha).2 j hj
  refine ⟨D, hR, fun r hr x hx => ?_⟩
  obtain ⟨s, hs, y, hy, hw⟩ := owner_exists h.world.setup x
  have hys : w.serial.IsNode y := node_whole h hs hy
  obtain ⟨z, hz, e⟩ := hst y hys
  obtain ⟨t, ht, hzt⟩ := owner h.world hz
  refine ⟨t, ht, z, hzt, ?_⟩
  rw [hY r hr x hx y hys hw, hσ t ht z hzt]
  exact e

/-- **C100.** Without thermal activation a parallel run never increases the number of unlike neighbour pairs of the whole grid, pairs across the borders of the ranks included. -/
theorem ranks_descend (hc : RoundTrips c) (h : LatticeOk w np select) (draws : Int → Nat → Nat → List Draw) (steps : Nat)
    {S S' : Int → Outcome (RankSt Int)} {D0 : Int → Int → Int} (hS : Running np S D0) (hv : AllValid c w.toSetup np D0)
    {σ : Int → Int} (hσ : ∀ r, IsRank np r → ∀ x, (w.shape r).IsNode x → cellAt (w.shape r) (D0 r) x = cellAt w.serial σ x)
    (hrun : updateRanks c w np select (fun _ _ => false) draws steps S = some S') :
    ∃ D σ', Running np S' D ∧ AllSynced w np D σ' ∧ boundaries w.serial σ' ≤ boundaries w.serial σ := by
  obtain ⟨D, σ', hR, hY, hser⟩ := ranks_serialise _ hc h (List.Perm.refl _) draws steps hS hv hσ hrun
  exact ⟨D, σ', hR, hY, updateWith_invariant (serial_wf h.world) select _ _ _ steps (P := fun d' => boundaries w.serial d' ≤ boundaries w.serial σ)
    (fun sub k rs d1 _ h1 hp => le_trans (pass_descends (serial_wf h.world) select sub k rs d1 hp) h1) (le_refl _) hser⟩

end

/-! ## Instances -/

theorem intCell_roundTrips : RoundTrips intCell := by
  intro v hv
  have hv : -2 ^ 31 ≤ v ∧ v < 2 ^ 31 := hv
  refine ⟨by simp [intCell, intBytes_length], fun rest => ?_⟩
  simp only [intCell]
  rw [readInt_intBytes hv.1 hv.2, Outcome.ok_bind]

/-- A 4×4 grid on two ranks. -/
def square4 : World := { d := 2, g0 := fun _ => 0, g1 := fun _ => 4, ghosts := 1, p := fun j => if j = 0 then 2 else 1, B0 := fun _ => .periodic, B1 := fun _ => .periodic }

theorem square4_ok : LatticeOk square4 2 (fun _ _ => true) := by
  have hj2 : ∀ j, j < 2 → j = 0 ∨ j = 1 := by intro j hj; omega
  refine ⟨⟨⟨⟨fun j hj => ?_, by decide⟩, by decide, fun j hj => ?_, by decide, fun j hj => ?_, fun r h0 h1 j hj => ?_⟩, fun j hj => ?_, fun j hj hm r hr => ?_⟩, Or.inl rfl, rfl,
    fun j hj => ?_, fun _ _ _ _ => rfl⟩
  all_goals
    rcases hj2 j hj with rfl | rfl
    all_goals
      first
        | decide
        | (have hr : r = 0 ∨ r = 1 := by omega
           rcases hr with rfl | rfl <;> decide +kernel)
        | (rcases hm with hm | hm <;> cases hm)

/-- Everybody always draws the first cell. -/
def firstCell (_ : Int) (_ _ : Nat) : List Draw := List.replicate 6 (0, 0, 0, 0)

/-- Stripes: the spin of a node is its first coordinate. -/
def stripes (p : Int) : Int := p / 4

-- the run returns, and its result is the serial one for either order of the ranks
example : ∃ S', updateRanks intCell square4 2 (fun _ _ => true) (fun _ _ => false) firstCell 3 (fun r => .ok ⟨fun p => p / 6 - 1 + 2 * r, 0⟩) = some S' ∧
    ∃ D σ', Running 2 S' D ∧ AllSynced square4 2 D σ' ∧
      updateWith square4.serial square4.g0 square4.g1 (fun _ _ => true) (fun _ _ => false) (attempts square4 [1, 0])
        (fun step sub => serialDraws square4 [1, 0] sub fun r => firstCell r step sub) 3 stripes = .ok (some σ') := by
  have hS : Running 2 (fun r => Outcome.ok (⟨fun p => p / 6 - 1 + 2 * r, 0⟩ : RankSt Int)) (fun r p => p / 6 - 1 + 2 * r) := fun r _ => ⟨0, rfl⟩
  have hv : AllValid intCell square4.toSetup 2 (fun r p => p / 6 - 1 + 2 * r) := by
    intro r hr o h0 h1
    have hc : (square4.toSetup.shape r).cells ≤ 24 := by
      have h2 := hr.1
      have h3 := hr.2
      have hr' : r = 0 ∨ r = 1 := by omega
      rcases hr' with rfl | rfl <;> decide +kernel
    have h2 := hr.1
    have h3 := hr.2
    show -2 ^ 31 ≤ o / 6 - 1 + 2 * r ∧ o / 6 - 1 + 2 * r < 2 ^ 31
    omega
  have hσ : ∀ r, IsRank 2 r → ∀ x, (square4.shape r).IsNode x → cellAt (square4.shape r) (fun p => p / 6 - 1 + 2 * r) x = cellAt square4.serial stripes x := by
    intro r hr x hx
    have h2 := hr.1
    have h3 := hr.2
    have e1 : square4.serial.rawOffset x = x 0 * 4 + x 1 := by
      simp [square4, World.serial, FileIO.serialShape, Shape.rawOffset, encode, Shape.sx, Shape.s0, Shape.s1, slice, Finset.sum_range_succ]
    have e2 : ∀ g : Shape, g.dim = 2 → g.ghosts = 1 → g.x1 1 = 4 → g.x0 1 = 0 → g.rawOffset x = (x 0 - (g.x0 0 - 1)) * 6 + (x 1 + 1) := by
      intro g h1 h2 h3 h4
      simp [Shape.rawOffset, encode, Shape.sx, Shape.s0, Shape.s1, slice, Finset.sum_range_succ, h1, h2, h3, h4]
    have hr' : r = 0 ∨ r = 1 := by omega
    have h1 : (square4.shape r).x1 1 = 4 ∧ (square4.shape r).x0 1 = 0 ∧ (square4.shape r).x0 0 = 2 * r := by
      rcases hr' with rfl | rfl <;> decide +kernel
    have h4 := hx 1 (show 1 < 2 by decide)
    unfold cellAt stripes
    rw [e1, e2 _ rfl rfl h1.1 h1.2.1]
    dsimp only
    rw [h1.2.2]
    omega
  have hen : ∀ step < 3, ∀ sub < numSublattices square4.d, ∀ r, IsRank 2 r → Enough square4 sub r (firstCell r step sub) := by
    intro step _ sub hsub r hr
    have h2 := hr.1
    have h3 := hr.2
    have hr' : r = 0 ∨ r = 1 := by omega
    have hsub : sub < 4 := hsub
    unfold Enough firstCell
    rcases hr' with rfl | rfl <;> revert sub <;> decide +kernel
  have hret := (ranks_return_iff (fun _ _ => false) intCell_roundTrips square4_ok firstCell 3 hS hv hσ).2 hen
  obtain ⟨S', hS'⟩ := Option.isSome_iff_exists.1 hret
  exact ⟨S', hS', ranks_serialise _ intCell_roundTrips square4_ok (order := [1, 0]) (by decide) firstCell 3 hS hv hσ hS'⟩

end MMSP.MonteCarlo
