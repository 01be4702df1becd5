import Verif.MultigridProps
/-!
# The multigrid solver: transfer between levels and whole cycles
-/

namespace MMSP.Multigrid

open Stencil (gridAt)

section
variable {α : Type} [Field α]

/-! ## More about loops that assign to nodes -/

omit [Field α] in
/-- A loop whose assignments read only the assigned element and elements that the loop never assigns. -/
theorem loop_local {off : (Nat → Int) → Int} {e : (Int → α) → (Nat → Int) → α} {L : List (Nat → Int)} (hn : (L.map off).Nodup)
    (he : ∀ u u' : Int → α, ∀ x ∈ L, (∀ p, (p = off x ∨ ∀ y ∈ L, off y ≠ p) → u p = u' p) → e u x = e u' x) (u : Int → α) {x : Nat → Int} (hx : x ∈ L) :
    L.foldl (fun u x => Function.update u (off x) (e u x)) u (off x) = e u x := by
  suffices H : ∀ (M : List (Nat → Int)) (w : Int → α), (M.map off).Nodup → (∀ y ∈ M, y ∈ L) → (∀ p, ((∃ y ∈ M, p = off y) ∨ ∀ y ∈ L, off y ≠ p) → w p = u p) → x ∈ M →
      M.foldl (fun u x => Function.update u (off x) (e u x)) w (off x) = e u x from H L u hn (fun _ h => h) (fun _ _ => rfl) hx
  intro M
  induction M with
  | nil => intro w _ _ _ hx; simp at hx
  | cons z M ih =>
    intro w hn hM hw hx
    rw [List.map_cons, List.nodup_cons] at hn
    rw [List.foldl_cons]
    have hz : ∀ y ∈ M, off y ≠ off z := fun y hy h => hn.1 (List.mem_map.2 ⟨y, hy, h⟩)
    rcases List.mem_cons.1 hx with rfl | hx
    · rw [loop_other hz, Function.update_self]
      apply he _ _ _ (hM _ (by simp))
      rintro p (rfl | h)
      · exact hw _ (Or.inl ⟨_, by simp, rfl⟩)
      · exact hw _ (Or.inr h)
    · apply ih _ hn.2 (fun y hy => hM y (by simp [hy])) _ hx
      rintro p hp
      have hpz : p ≠ off z := by
        rcases hp with ⟨y, hy, rfl⟩ | h
        · exact hz y hy
        · exact Ne.symm (h z (hM z (by simp)))
      rw [Function.update_of_ne hpz]
      apply hw
      rcases hp with ⟨y, hy, rfl⟩ | h
      · exact Or.inl ⟨y, by simp [hy], rfl⟩
      · exact Or.inr h

omit [Field α] in
/-- The representative of a node in the lists: coordinates of axes that do not exist are 0. -/
theorem exists_rep (g : Shape) (x : Nat → Int) : ∃ y : Nat → Int, g.SamePoint y x ∧ ∀ j, g.dim ≤ j → y j = 0 :=
  ⟨fun j => if j < g.dim then x j else 0, fun _ hj => if_pos hj, fun _ hj => if_neg (by omega)⟩

omit [Field α] in
theorem val_congr {g : Shape} {x y : Nat → Int} (h : g.SamePoint x y) (u : Int → α) : val g u x = val g u y := by
  unfold val; rw [rawOffset_congr h]

omit [Field α] in
theorem move_congr {g : Shape} {x y : Nat → Int} (h : g.SamePoint x y) (a : Nat) (k : Int) : g.SamePoint (move x a k) (move y a k) := by
  intro j hj
  unfold move
  by_cases e : j = a
  · subst e; rw [Function.update_self, Function.update_self, h j hj]
  · rw [Function.update_of_ne e, Function.update_of_ne e, h j hj]

theorem lap_congr {g : Shape} {x y : Nat → Int} (h : g.SamePoint x y) (dx : Nat → α) (s : Nat) (u : Int → α) : lap g dx s u x = lap g dx s u y := by
  unfold lap
  apply Finset.sum_congr rfl
  intro a _
  rw [val_congr h, val_congr (move_congr h a _), val_congr (move_congr h a _)]

omit [Field α] in
/-- Lists of nodes without repetition have no repeated offsets. -/
theorem nodup_offsets {g : Shape} (h0 : g.ghosts = 0) {L : List (Nat → Int)} (hL : ∀ x ∈ L, g.IsNode x) (hz : ∀ x ∈ L, ∀ j, g.dim ≤ j → x j = 0) (hn : L.Nodup) :
    (L.map g.rawOffset).Nodup := by
  apply List.Nodup.map_on _ hn
  intro x hx y hy e
  have hsame := raw_inj h0 (hL x hx) (hL y hy) e
  funext j
  by_cases hj : j < g.dim
  · exact hsame j hj
  · rw [hz x hx j (by omega), hz y hy j (by omega)]

/-! ## Defect -/

/-- A node on the boundary. -/
def Boundary (g : Shape) (x : Nat → Int) : Prop := ∃ j, j < g.dim ∧ (x j = 0 ∨ x j = g.x1 j - 1)

theorem defectAt_ok {g : Shape} {s : Nat} (ha : Aligned g s) (dx : Nat → α) (f u : Int → α) {x : Nat → Int} (hx : Inner g s x) :
    defectAt g dx s f u x = .ok (val g f x - lap g dx s u x) := by
  unfold defectAt lap
  rw [get_ok ha.wf ha.ghosts (inner_isNode ha hx), Outcome.ok_bind]
  generalize val g f x = z
  generalize g.dim = n
  induction n with
  | zero => simp
  | succ n ih =>
    rw [List.range_succ, List.foldlM_append, ih, Finset.sum_range_succ, Outcome.bind_eq, Outcome.ok_bind, List.foldlM_cons, get_ok ha.wf ha.ghosts (move_isNode ha hx n (Or.inr rfl)),
      Outcome.ok_bind, get_ok ha.wf ha.ghosts (inner_isNode ha hx), Outcome.ok_bind, get_ok ha.wf ha.ghosts (move_isNode ha hx n (Or.inl rfl)), Outcome.ok_bind, Outcome.bind_eq,
      Outcome.ok_bind, List.foldlM_nil, Outcome.pure_eq]
    congr 1
    ring

omit [Field α] in
theorem outer_spec {g : Shape} {s : Nat} (ha : Aligned g s) {x : Nat → Int} (hx : x ∈ outer g s) : g.IsNode x ∧ Boundary g x := by
  unfold outer at hx
  split_ifs at hx with h1
  · rw [List.mem_flatMap] at hx
    obtain ⟨y, hy, hxy⟩ := hx
    have hs := ha.wf.side 0 (by omega)
    have h0 := ha.x0 0 (by omega)
    simp only [List.mem_cons, List.not_mem_nil, or_false] at hxy
    refine ⟨fun j hj => ?_, 0, by omega, ?_⟩
    · have : j = 0 := by omega
      subst this
      rcases hxy with rfl | rfl <;> rw [Function.update_self] <;> constructor <;> omega
    · rcases hxy with rfl | rfl <;> rw [Function.update_self] <;> simp
  · rw [List.mem_flatMap] at hx
    obtain ⟨a, hag, hx⟩ := hx
    rw [List.mem_range] at hag
    obtain ⟨hx, -⟩ := mem_lattice.1 hx
    have key : x a = 0 ∨ x a = g.x1 a - 1 := by
      have := hx a hag
      rw [if_pos rfl] at this
      simpa using this
    refine ⟨fun j hj => ?_, a, hag, key⟩
    have hs := ha.wf.side j hj
    have h0 := ha.x0 j hj
    by_cases e : j = a
    · subst e; constructor <;> omega
    · have := hx j hj
      rw [if_neg e, mem_irange ha.pos] at this
      constructor <;> omega

omit [Field α] in
theorem not_boundary_of_inner {g : Shape} {s : Nat} {x : Nat → Int} (hx : Inner g s x) : ¬ Boundary g x := by
  rintro ⟨j, hj, h⟩
  have := hx j hj
  omega

/-- **C56.** `defect` gives what is missing in the equation, at every inner node of the level; all other nodes off the boundary are left as they were (not initialised). -/
theorem defect_spec {g : Shape} {s : Nat} (ha : Aligned g s) (dx : Nat → α) (u f d : Int → α) :
    ∃ d', defect g dx s u f d = .ok d' ∧ (∀ x, Inner g s x → val g d' x = val g f x - lap g dx s u x) ∧
      ∀ x, g.IsNode x → ¬ Inner g s x → ¬ Boundary g x → val g d' x = val g d x := by
  have hin : ∀ x ∈ inner g s, Inner g s x := fun x hx => ((mem_inner ha.pos).1 hx).1
  have h1 := loop_ok ha.wf ha.ghosts (e := fun _ x => val g f x - lap g dx s u x) (fun x hx => inner_isNode ha (hin x hx)) (fun _ x hx => defectAt_ok ha dx f u (hin x hx)) d
  have h2 := fun d => loop_ok ha.wf ha.ghosts (e := fun _ _ => (0 : α)) (body := fun _ _ => .ok 0) (fun x hx => (outer_spec ha hx).1) (fun _ _ _ => rfl) d
  simp only [Outcome.ok_bind] at h2
  have hdef : defect g dx s u f d = .ok ((outer g s).foldl (fun d x => Function.update d (g.rawOffset x) 0)
      ((inner g s).foldl (fun d x => Function.update d (g.rawOffset x) (val g f x - lap g dx s u x)) d)) := by
    unfold defect
    rw [h1, Outcome.ok_bind]
    exact h2 _
  refine ⟨_, hdef, ?_, ?_⟩
  · intro x hx
    have hxn := inner_isNode ha hx
    have hout : ∀ y ∈ outer g s, g.rawOffset y ≠ g.rawOffset x := by
      intro y hy e
      obtain ⟨hyn, j, hj, hb⟩ := outer_spec ha hy
      have := raw_inj ha.ghosts hyn hxn e j hj
      exact not_boundary_of_inner hx ⟨j, hj, by omega⟩
    unfold val
    rw [loop_other hout]
    obtain ⟨y, hy, hy0⟩ := exists_rep g x
    have hym : y ∈ inner g s := (mem_inner ha.pos).2 ⟨fun j hj => by rw [hy j hj]; exact hx j hj, hy0⟩
    rw [← rawOffset_congr hy, loop_local (nodup_offsets ha.ghosts (fun x hx => inner_isNode ha (hin x hx)) (fun x hx => ((mem_inner ha.pos).1 hx).2) (nodup_inner ha.pos)) (fun _ _ _ _ _ => rfl) d hym,
      lap_congr hy]
  · intro x hxn hni hnb
    have hout : ∀ y ∈ outer g s, g.rawOffset y ≠ g.rawOffset x := by
      intro y hy e
      obtain ⟨hyn, j, hj, hb⟩ := outer_spec ha hy
      have := raw_inj ha.ghosts hyn hxn e j hj
      exact hnb ⟨j, hj, by omega⟩
    unfold val
    rw [loop_other hout, loop_other]
    intro y hy e
    have := raw_inj ha.ghosts (inner_isNode ha (hin y hy)) hxn e
    exact hni fun j hj => by rw [← this j hj]; exact hin y hy j hj

/-! ## Restriction -/

/-- Full weighting: every axis averages with weights 1/4, 1/2, 1/4. -/
def fullWeight (g : Shape) (s : Nat) (u : Int → α) (x : Nat → Int) : α := ((steps g.dim).map fun o => factor g.dim o * val g u fun j => x j + s * o j).sum

omit [Field α] in
theorem mem_steps {n : Nat} {o : Nat → Int} (h : o ∈ steps n) : ∀ j, j < n → o j = -1 ∨ o j = 0 ∨ o j = 1 := by
  intro j hj
  have := (mem_lattice.1 h).1 j hj
  simpa using this

omit [Field α] in
/-- The neighbours averaged are inner nodes of the finer level. -/
theorem around_inner {g : Shape} {s : Nat} (hs : 0 < s) (ha : Aligned g (2 * s)) {x : Nat → Int} (hx : Inner g (2 * s) x) {o : Nat → Int} (ho : o ∈ steps g.dim) :
    Inner g s fun j => x j + s * o j := by
  intro j hj
  obtain ⟨h1, h2, h3⟩ := hx j hj
  have hd := ha.dvd j hj
  have h4 := dvd_le hd h3 h2
  have h5 := Int.le_of_dvd h1 h3
  have h6 : (s : Int) ∣ x j := Int.dvd_trans ⟨2, by push_cast; ring⟩ h3
  push_cast at h4 h5
  refine ⟨?_, ?_, Int.dvd_add h6 (Int.dvd_mul_right _ _)⟩ <;> beta_reduce <;> rcases mem_steps ho j hj with e | e | e <;> rw [e] <;> omega

theorem weighted_ok {g : Shape} {s : Nat} (hs : 0 < s) (ha : Aligned g (2 * s)) (has : Aligned g s) (u : Int → α) {x : Nat → Int} (hx : Inner g (2 * s) x) :
    weighted g s u x = .ok (fullWeight g s u x) := by
  unfold weighted fullWeight
  have key : ∀ (L : List (Nat → Int)) (z : α), (∀ o ∈ L, o ∈ steps g.dim) →
      L.foldlM (fun sum o => (gridAt .serial g u fun j => x j + s * o j).bind fun v => .ok (sum + factor g.dim o * v)) z =
        Outcome.ok (z + (L.map fun o => factor g.dim o * val g u fun j => x j + s * o j).sum) := by
    intro L
    induction L with
    | nil => intro z _; simp
    | cons o L ih =>
      intro z h
      rw [List.foldlM_cons, get_ok has.wf has.ghosts (inner_isNode has (around_inner hs ha hx (h o (by simp)))), Outcome.ok_bind, Outcome.bind_eq, Outcome.ok_bind,
        ih _ fun o ho => h o (by simp [ho])]
      rw [List.map_cons, List.sum_cons, add_assoc]
  rw [key _ _ fun _ h => h, zero_add]

omit [Field α] in
theorem aligned_half {g : Shape} {s : Nat} (hs : 0 < s) (ha : Aligned g (2 * s)) : Aligned g s :=
  ⟨ha.wf, ha.ghosts, ha.x0, hs, fun j hj => Int.dvd_trans ⟨2, by push_cast; ring⟩ (ha.dvd j hj)⟩

omit [Field α] in
theorem inner_half {g : Shape} {s : Nat} {x : Nat → Int} (hx : Inner g (2 * s) x) : Inner g s x :=
  fun j hj => ⟨(hx j hj).1, (hx j hj).2.1, Int.dvd_trans ⟨2, by push_cast; ring⟩ (hx j hj).2.2⟩

/-- Full weighting reads only inner nodes of the finer level. -/
theorem fullWeight_congr {g : Shape} {s : Nat} (hs : 0 < s) (ha : Aligned g (2 * s)) {u u' : Int → α} {x : Nat → Int} (hx : Inner g (2 * s) x)
    (h : ∀ y, Inner g s y → val g u y = val g u' y) : fullWeight g s u x = fullWeight g s u' x := by
  unfold fullWeight
  congr 1
  apply List.map_congr_left
  intro o ho
  rw [h _ (around_inner hs ha hx ho)]

/-- **C56.** In two and three dimensions `coarsen` replaces the value at every inner node of the coarser level by the weighted mean of the old values around it (the values it overwrites on the way are never read again), and changes nothing else. -/
theorem coarsen_spec {g : Shape} {s : Nat} (hs : 0 < s) (ha : Aligned g (2 * s)) (hdim : g.dim ≠ 1) (u : Int → α) :
    ∃ u', coarsen g s u = .ok u' ∧ (∀ x, Inner g (2 * s) x → val g u' x = fullWeight g s u x) ∧ ∀ x, g.IsNode x → ¬ Inner g (2 * s) x → val g u' x = val g u x := by
  have has := aligned_half hs ha
  have hin : ∀ x ∈ inner g (2 * s), Inner g (2 * s) x := fun x hx => ((mem_inner ha.pos).1 hx).1
  have h1 := loop_ok ha.wf ha.ghosts (e := fun u x => fullWeight g s u x) (fun x hx => inner_isNode ha (hin x hx)) (fun u x hx => weighted_ok hs ha has u (hin x hx)) u
  have hco : coarsen g s u = .ok ((inner g (2 * s)).foldl (fun u x => Function.update u (g.rawOffset x) (fullWeight g s u x)) u) := by
    unfold coarsen
    rw [if_neg hdim]
    exact h1
  refine ⟨_, hco, ?_, ?_⟩
  · intro x hx
    obtain ⟨y, hy, hy0⟩ := exists_rep g x
    have hym : y ∈ inner g (2 * s) := (mem_inner ha.pos).2 ⟨fun j hj => by rw [hy j hj]; exact hx j hj, hy0⟩
    unfold val
    rw [← rawOffset_congr hy, loop_local (nodup_offsets ha.ghosts (fun x hx => inner_isNode ha (hin x hx)) (fun x hx => ((mem_inner ha.pos).1 hx).2) (nodup_inner ha.pos)) _ u hym]
    · unfold fullWeight
      congr 1
      apply List.map_congr_left
      intro o _
      rw [val_congr (fun j hj => by rw [hy j hj])]
    · intro u u' z hz h
      have hzi := hin z hz
      unfold fullWeight
      congr 1
      apply List.map_congr_left
      intro o ho
      congr 1
      unfold val
      apply h
      by_cases e0 : ∀ j, j < g.dim → o j = 0
      · left
        apply rawOffset_congr
        intro j hj
        show z j + s * o j = z j
        rw [e0 j hj]; ring
      · right
        push Not at e0
        obtain ⟨j, hj, hoj⟩ := e0
        intro y hy e
        have hsame := raw_inj ha.ghosts (inner_isNode ha (hin y hy)) (inner_isNode has (around_inner hs ha hzi ho)) e j hj
        have hyd := (hin y hy j hj).2.2
        have hzd := (hzi j hj).2.2
        rw [hsame] at hyd
        have h2 : ((2 * s : Nat) : Int) ∣ s * o j := (Int.dvd_add_right hzd).1 hyd
        rcases mem_steps ho j hj with e | e | e
        · rw [e] at h2
          have := Int.le_of_dvd (show 0 < (s : Int) by omega) ((Int.dvd_neg).1 (by simpa using h2))
          omega
        · exact hoj e
        · rw [e] at h2
          have := Int.le_of_dvd (show 0 < (s : Int) by omega) (by simpa using h2)
          omega
  · intro x hxn hni
    unfold val
    rw [loop_other]
    intro y hy e
    have := raw_inj ha.ghosts (inner_isNode ha (hin y hy)) hxn e
    exact hni fun j hj => by rw [← this j hj]; exact hin y hy j hj

/-- **C56.** In one dimension `coarsen` does nothing: the defect is passed down without averaging. -/
theorem coarsen_line {g : Shape} (h : g.dim = 1) (s : Nat) (u : Int → α) : coarsen g s u = .ok u := if_pos h

/-- The mean over the neighbours at distance `s` along each of the first axes in turn, with weights 1/4, 1/2, 1/4. -/
def mean (s : Nat) (w : (Nat → Int) → α) : Nat → (Nat → Int) → α
  | 0, x => w x
  | n + 1, x => 1 / 4 * mean s w n (move x n (-s)) + 1 / 2 * mean s w n x + 1 / 4 * mean s w n (move x n s)

/-- **C56.** The factors of `coarsen` are those of the mean with weights 1/4, 1/2, 1/4 along every axis. -/
theorem fullWeight_eq (g : Shape) (s : Nat) (u : Int → α) (x : Nat → Int) : fullWeight g s u x = mean s (val g u) g.dim x := by
  unfold fullWeight
  generalize val g u = w
  generalize g.dim = n
  induction n generalizing x with
  | zero => simp [steps, lattice, factor, mean]
  | succ n ih =>
    have hf : ∀ (p : Nat → Int) (c : Int), (factor (n + 1) (Function.update p n c) : α) = factor n p * if c = 0 then 1 / 2 else 1 / 4 := by
      intro p c
      unfold factor
      rw [Finset.prod_range_succ, Function.update_self]
      congr 1
      apply Finset.prod_congr rfl
      intro j hj
      rw [Function.update_of_ne (by have := Finset.mem_range.1 hj; omega)]
    have hflat : ∀ (L : List (Nat → Int)) (F : (Nat → Int) → List (Nat → Int)) (w : (Nat → Int) → α), ((L.flatMap F).map w).sum = (L.map fun p => ((F p).map w).sum).sum := by
      intro L F w
      induction L with
      | nil => rfl
      | cons p L ih => rw [List.flatMap_cons, List.map_append, List.sum_append, ih, List.map_cons, List.sum_cons]
    have hs : steps (n + 1) = (steps n).flatMap fun p => [-1, 0, 1].map fun c : Int => Function.update p n c := rfl
    have hm : ∀ p ∈ steps n, ∀ c : Int, (fun j => x j + s * Function.update p n c j) = fun j => move x n (s * c) j + s * p j := by
      intro p hp c
      have hp0 := (mem_lattice.1 hp).2 n (le_refl _)
      funext j
      unfold move
      by_cases e : j = n
      · subst e; rw [Function.update_self, Function.update_self, hp0]; ring
      · rw [Function.update_of_ne e, Function.update_of_ne e]
    have h0 : move x n 0 = x := by unfold move; rw [add_zero, Function.update_eq_self]
    rw [hs, hflat, mean, ← ih, ← ih, ← ih, ← List.sum_map_mul_left, ← List.sum_map_mul_left, ← List.sum_map_mul_left, ← List.sum_map_add, ← List.sum_map_add]
    congr 1
    apply List.map_congr_left
    intro p hp
    simp only [List.map_cons, List.map_nil, List.sum_cons, List.sum_nil, hf, hm p hp, mul_neg, mul_one, mul_zero, h0]
    norm_num
    ring

/-! ## Interpolation -/

omit [Field α] in
theorem passNodes_spec {g : Shape} {s : Nat} (hs : 0 < s) {a : Nat} {x : Nat → Int} : x ∈ passNodes g s a ↔
    (Inner g s x ∧ (a < g.dim → ¬ ((2 * s : Nat) : Int) ∣ x a) ∧ ∀ j, a < j → j < g.dim → ((2 * s : Nat) : Int) ∣ x j) ∧ ∀ j, g.dim ≤ j → x j = 0 := by
  unfold passNodes
  rw [mem_lattice]
  apply and_congr_left
  intro _
  have hss : (s : Int) ∣ ((2 * s : Nat) : Int) := ⟨2, by push_cast; ring⟩
  constructor
  · intro h
    refine ⟨fun j hj => ?_, fun hag => ?_, fun j haj hj => ?_⟩
    · have := h j hj
      split_ifs at this with h1 h2
      · rw [mem_irange hs] at this
        exact ⟨by omega, this.2.1, by have := Int.dvd_add this.2.2 (Int.dvd_refl (s : Int)); simpa using this⟩
      · rw [mem_irange (by omega)] at this
        refine ⟨by omega, this.2.1, ?_⟩
        have h3 := Int.dvd_add (Int.dvd_trans hss this.2.2) (Int.dvd_refl (s : Int))
        simpa using h3
      · rw [mem_irange (by omega)] at this
        refine ⟨by push_cast at this; omega, this.2.1, ?_⟩
        have h3 := Int.dvd_add (Int.dvd_trans hss this.2.2) hss
        simpa using h3
    · have := h a hag
      rw [if_neg (by omega), if_pos rfl, mem_irange (by omega)] at this
      intro hd
      have h2 := (Int.dvd_sub hd this.2.2)
      rw [show x a - (x a - s) = s by ring] at h2
      have := Int.le_of_dvd (by omega) h2
      push_cast at this; omega
    · have := h j hj
      rw [if_neg (by omega), if_neg (by omega), mem_irange (by omega)] at this
      have h3 := Int.dvd_add this.2.2 (Int.dvd_refl ((2 * s : Nat) : Int))
      simpa using h3
  · rintro ⟨h1, h2, h3⟩ j hj
    obtain ⟨hp, hl, hd⟩ := h1 j hj
    split_ifs with e1 e2
    · rw [mem_irange hs]
      exact ⟨Int.le_of_dvd hp hd, hl, Int.dvd_sub hd (Int.dvd_refl _)⟩
    · subst e2
      rw [mem_irange (by omega)]
      refine ⟨Int.le_of_dvd hp hd, hl, ?_⟩
      obtain ⟨k, hk⟩ := hd
      have hnd := h2 hj
      rw [hk] at hnd ⊢
      rcases Int.even_or_odd' k with ⟨m, hm | hm⟩
      · exact absurd ⟨m, by rw [hm]; push_cast; ring⟩ hnd
      · exact ⟨m, by rw [hm]; push_cast; ring⟩
    · rw [mem_irange (by omega)]
      have hdd := h3 j (by omega) hj
      exact ⟨Int.le_of_dvd hp hdd, hl, Int.dvd_sub hdd (Int.dvd_refl _)⟩

omit [Field α] in
theorem nodup_passNodes {g : Shape} {s : Nat} (hs : 0 < s) (a : Nat) : (passNodes g s a).Nodup := by
  apply nodup_lattice
  intro j _
  split_ifs <;> exact nodup_irange (by omega) _ _

/-- All passes of `refine` as loops of assignments. -/
def refined (g : Shape) (s : Nat) (F : (Int → α) → (Nat → Int) → Nat → α) (u : Int → α) : Int → α :=
  (List.range g.dim).foldl (fun u a => (passNodes g s a).foldl (fun u x => Function.update u (g.rawOffset x) (F u x a)) u) u

omit [Field α] in
theorem pass_inner {g : Shape} {s : Nat} (hs : 0 < s) {a : Nat} {x : Nat → Int} (hx : x ∈ passNodes g s a) : Inner g s x := ((passNodes_spec hs).1 hx).1.1

omit [Field α] in
theorem refine_ok {g : Shape} {s : Nat} (ha : Aligned g s) (hdim : g.dim ≠ 1) {formula : (Int → α) → (Nat → Int) → Nat → Outcome α} {F : (Int → α) → (Nat → Int) → Nat → α}
    (hF : ∀ a, a < g.dim → ∀ u, ∀ x ∈ passNodes g s a, formula u x a = .ok (F u x a)) (u : Int → α) : refine g s formula u = .ok (refined g s F u) := by
  unfold refine refined
  rw [if_neg hdim]
  have key : ∀ (L : List Nat) (u : Int → α), (∀ a ∈ L, a < g.dim) →
      L.foldlM (fun u a => (passNodes g s a).foldlM (fun u x => (formula u x a).bind fun v => setAt g u x v) u) u =
        Outcome.ok (L.foldl (fun u a => (passNodes g s a).foldl (fun u x => Function.update u (g.rawOffset x) (F u x a)) u) u) := by
    intro L
    induction L with
    | nil => intro u _; rfl
    | cons a L ih =>
      intro u h
      rw [List.foldlM_cons, loop_ok ha.wf ha.ghosts (e := fun u x => F u x a) (fun x hx => inner_isNode ha (pass_inner ha.pos hx)) (fun u x hx => hF a (h a (by simp)) u x hx),
        Outcome.bind_eq, Outcome.ok_bind, List.foldl_cons]
      exact ih _ fun b hb => h b (by simp [hb])
  exact key _ u fun a h => List.mem_range.1 h

omit [Field α] in
/-- Only inner nodes of the level are assigned. -/
theorem refined_other {g : Shape} {s : Nat} (ha : Aligned g s) (F : (Int → α) → (Nat → Int) → Nat → α) (u : Int → α) {x : Nat → Int} (hx : g.IsNode x) (hn : ¬ Inner g s x) :
    val g (refined g s F u) x = val g u x := by
  unfold refined
  generalize List.range g.dim = L
  induction L generalizing u with
  | nil => rfl
  | cons a L ih =>
    rw [List.foldl_cons, ih]
    unfold val
    apply loop_other
    intro y hy e
    have hy' := pass_inner ha.pos hy
    have := raw_inj ha.ghosts (inner_isNode ha hy') hx e
    exact hn fun j hj => by rw [← this j hj]; exact hy' j hj

theorem refined_zero (g : Shape) (s : Nat) {F : (Int → α) → (Nat → Int) → Nat → α} (hF : ∀ x a, F (fun _ => 0) x a = 0) : refined g s F (fun _ => 0) = fun _ => 0 := by
  unfold refined
  generalize List.range g.dim = L
  induction L with
  | nil => rfl
  | cons a L ih =>
    rw [List.foldl_cons, loop_invariant (fun u => u = fun _ => (0 : α)) _ rfl, ih]
    rintro u x - rfl
    rw [hF]
    exact Function.update_eq_self _ _

/-- A node of the level. -/
def Node (g : Shape) (s : Nat) (x : Nat → Int) : Prop := ∀ j, j < g.dim → 0 ≤ x j ∧ x j ≤ g.x1 j - 1 ∧ (s : Int) ∣ x j

omit [Field α] in
theorem node_isNode {g : Shape} {s : Nat} (ha : Aligned g s) {x : Nat → Int} (hx : Node g s x) : g.IsNode x := by
  intro j hj
  have := hx j hj
  rw [ha.x0 j hj]
  exact ⟨by omega, by omega⟩

omit [Field α] in
theorem inner_of_node {g : Shape} {s : Nat} {x : Nat → Int} (hx : Node g s x) (hb : ¬ Boundary g x) : Inner g s x := by
  intro j hj
  have h := hx j hj
  have h1 : x j ≠ 0 := fun e => hb ⟨j, hj, Or.inl e⟩
  have h2 : x j ≠ g.x1 j - 1 := fun e => hb ⟨j, hj, Or.inr e⟩
  exact ⟨by omega, by omega, h.2.2⟩

/-- `u` and `w` agree at the nodes of the level that lie on the boundary and at those that are on the coarser level along the axes from `a` on. -/
def Agree (g : Shape) (s a : Nat) (w u : Int → α) : Prop :=
  ∀ x, Node g s x → (Boundary g x ∨ ∀ j, a ≤ j → j < g.dim → ((2 * s : Nat) : Int) ∣ x j) → val g u x = val g w x

omit [Field α] in
theorem refined_exact {g : Shape} {s : Nat} (ha : Aligned g s) {F : (Int → α) → (Nat → Int) → Nat → α} {w : Int → α}
    (hF : ∀ a, a < g.dim → ∀ x ∈ passNodes g s a, ∀ u : Int → α,
      (∀ t, 0 ≤ t → t ≤ g.x1 a - 1 → ((2 * s : Nat) : Int) ∣ t → val g u (Function.update x a t) = val g w (Function.update x a t)) → F u x a = val g w x)
    {u : Int → α} (hu : Agree g s 0 w u) : ∀ x, Node g s x → val g (refined g s F u) x = val g w x := by
  have hs := ha.pos
  have hss : (s : Int) ∣ ((2 * s : Nat) : Int) := ⟨2, by push_cast; ring⟩
  have pass : ∀ a, a < g.dim → ∀ u, Agree g s a w u → Agree g s (a + 1) w ((passNodes g s a).foldl (fun u x => Function.update u (g.rawOffset x) (F u x a)) u) := by
    intro a hag u hu
    -- every assignment writes the value of `w`
    have write : ∀ u, Agree g s a w u → ∀ x ∈ passNodes g s a, F u x a = val g w x := by
      intro u hu x hx
      apply hF a hag x hx
      intro t h0 h1 h2
      obtain ⟨⟨hi, -, h3⟩, -⟩ := (passNodes_spec hs).1 hx
      apply hu
      · intro j hj
        by_cases e : j = a
        · subst e; rw [Function.update_self]; exact ⟨h0, h1, Int.dvd_trans hss h2⟩
        · rw [Function.update_of_ne e]
          have := hi j hj
          exact ⟨by omega, by omega, this.2.2⟩
      · right
        intro j hj hjd
        by_cases e : j = a
        · subst e; rw [Function.update_self]; exact h2
        · rw [Function.update_of_ne e]; exact h3 j (by omega) hjd
    have step : ∀ (Q : Int → Prop) u, Agree g s a w u → (∀ p, Q p → u p = w p) → ∀ x ∈ passNodes g s a,
        Agree g s a w (Function.update u (g.rawOffset x) (F u x a)) ∧ ∀ p, (Q p ∨ p = g.rawOffset x) → Function.update u (g.rawOffset x) (F u x a) p = w p := by
      intro Q u hu hQ x hx
      have hw := write u hu x hx
      have gen : ∀ p, (u p = w p ∨ p = g.rawOffset x) → Function.update u (g.rawOffset x) (F u x a) p = w p := by
        intro p hp
        by_cases e : p = g.rawOffset x
        · subst e; rw [Function.update_self]; exact hw
        · rw [Function.update_of_ne e]; exact hp.resolve_right e
      exact ⟨fun y hy hc => gen _ (Or.inl (hu y hy hc)), fun p hp => gen p (hp.imp_left (hQ p))⟩
    have loop : ∀ (L : List (Nat → Int)) (Q : Int → Prop) u, (∀ x ∈ L, x ∈ passNodes g s a) → Agree g s a w u → (∀ p, Q p → u p = w p) →
        Agree g s a w (L.foldl (fun u x => Function.update u (g.rawOffset x) (F u x a)) u) ∧
          ∀ p, (Q p ∨ ∃ x ∈ L, p = g.rawOffset x) → L.foldl (fun u x => Function.update u (g.rawOffset x) (F u x a)) u p = w p := by
      intro L
      induction L with
      | nil => intro Q u _ hu hQ; exact ⟨hu, fun p hp => hQ p (hp.elim id fun ⟨x, hx, _⟩ => by simp at hx)⟩
      | cons z L ih =>
        intro Q u hL hu hQ
        obtain ⟨h1, h2⟩ := step Q u hu hQ z (hL z (by simp))
        obtain ⟨h3, h4⟩ := ih _ _ (fun x hx => hL x (by simp [hx])) h1 h2
        rw [List.foldl_cons]
        refine ⟨h3, fun p hp => h4 p ?_⟩
        rcases hp with hp | ⟨x, hx, hp⟩
        · exact Or.inl (Or.inl hp)
        · rcases List.mem_cons.1 hx with rfl | hx
          · exact Or.inl (Or.inr hp)
          · exact Or.inr ⟨x, hx, hp⟩
    obtain ⟨l1, l2⟩ := loop (passNodes g s a) (fun _ => False) u (fun _ h => h) hu (fun _ h => h.elim)
    intro x hx hc
    by_cases hb : Boundary g x
    · exact l1 x hx (Or.inl hb)
    have hi := inner_of_node hx hb
    have hc := hc.resolve_left hb
    by_cases hd : ((2 * s : Nat) : Int) ∣ x a
    · refine l1 x hx (Or.inr fun j hj hjd => ?_)
      by_cases e : j = a
      · subst e; exact hd
      · exact hc j (by omega) hjd
    · obtain ⟨y, hy, hy0⟩ := exists_rep g x
      have hym : y ∈ passNodes g s a := by
        refine (passNodes_spec hs).2 ⟨⟨fun j hj => by rw [hy j hj]; exact hi j hj, fun h => by rw [hy a h]; exact hd, fun j h1 h2 => by rw [hy j h2]; exact hc j h1 h2⟩, hy0⟩
      exact l2 _ (Or.inr ⟨y, hym, (rawOffset_congr hy).symm⟩)
  have all : ∀ n, n ≤ g.dim → Agree g s n w ((List.range n).foldl (fun u a => (passNodes g s a).foldl (fun u x => Function.update u (g.rawOffset x) (F u x a)) u) u) := by
    intro n
    induction n with
    | zero => intro _; exact hu
    | succ n ih =>
      intro hn
      rw [List.range_succ, List.foldl_append, List.foldl_cons, List.foldl_nil]
      exact pass n (by omega) _ (ih (by omega))
  intro x hx
  exact all g.dim (le_refl _) x hx (Or.inr fun j h1 h2 => by omega)

/-- What `linear` computes. -/
def lin (g : Shape) (s : Nat) (u : Int → α) (x : Nat → Int) (a : Nat) : α := 1 / 2 * (val g u (move x a s) + val g u (move x a (-s)))

theorem linear_ok {g : Shape} {s : Nat} (ha : Aligned g s) (u : Int → α) {x : Nat → Int} (hx : Inner g s x) (a : Nat) : linear g s u x a = .ok (lin g s u x a) := by
  unfold linear lin
  rw [get_ok ha.wf ha.ghosts (move_isNode ha hx a (Or.inl rfl)), Outcome.ok_bind, get_ok ha.wf ha.ghosts (move_isNode ha hx a (Or.inr rfl)), Outcome.ok_bind]

/-- What `cubic` computes. -/
def cub (g : Shape) (s : Nat) (u : Int → α) (x : Nat → Int) (a : Nat) : α :=
  let v := fun k : Int => val g u (move x a (k * s))
  if x a = s then 5 / 16 * (v (-1) - v 3) + 15 / 16 * v 1 + 1 / 16 * v 5
  else if x a = g.x1 a - 1 - s then 1 / 16 * v (-5) + 15 / 16 * v (-1) + 5 / 16 * (v 1 - v (-3))
  else 9 / 16 * (v (-1) + v 1) - 1 / 16 * (v (-3) + v 3)

omit [Field α] in
theorem slide_isNode {g : Shape} {s : Nat} (ha : Aligned g s) {x : Nat → Int} (hx : Inner g s x) {a : Nat} {k : Int} (h : a < g.dim → 0 ≤ x a + k ∧ x a + k ≤ g.x1 a - 1) :
    g.IsNode (move x a k) := by
  intro j hj
  have h0 := ha.x0 j hj
  have hj' := hx j hj
  unfold move
  by_cases e : j = a
  · subst e; rw [Function.update_self]; have := h hj; constructor <;> omega
  · rw [Function.update_of_ne e]; constructor <;> omega

omit [Field α] in
/-- An odd multiple of the stride is `s` or at least `3s`. -/
theorem odd_steps {s : Nat} {y : Int} (hp : 0 < y) (hd : (s : Int) ∣ y) (hn : ¬ ((2 * s : Nat) : Int) ∣ y) (h1 : y ≠ s) : 3 * (s : Int) ≤ y := by
  obtain ⟨k, rfl⟩ := hd
  have hs : 0 < (s : Int) := by
    rcases Nat.eq_zero_or_pos s with rfl | h
    · simp at hp
    · exact_mod_cast h
  have hk : 0 < k := by by_contra h; nlinarith
  have hk1 : k ≠ 1 := fun e => h1 (by rw [e, mul_one])
  have hk2 : k ≠ 2 := fun e => hn ⟨1, by rw [e]; push_cast; ring⟩
  nlinarith [show 3 ≤ k by omega]

theorem cubic_ok {g : Shape} {s : Nat} (hs : 0 < s) (ha : Aligned g (2 * s)) (hlong : ∀ j, j < g.dim → 6 * (s : Int) ≤ g.x1 j - 1) (u : Int → α) {a : Nat} (hag : a < g.dim) {x : Nat → Int}
    (hx : x ∈ passNodes g s a) : cubic g s u x a = .ok (cub g s u x a) := by
  have has := aligned_half hs ha
  obtain ⟨⟨hi, hodd, -⟩, -⟩ := (passNodes_spec hs).1 hx
  have hodd := hodd hag
  obtain ⟨h0, h1, h2⟩ := hi a hag
  have hl := hlong a hag
  have hd := ha.dvd a hag
  have hds := has.dvd a hag
  have up := dvd_le hds h2 h1
  have lo := Int.le_of_dvd h0 h2
  have hlo := odd_steps h0 h2 hodd
  have hhi : g.x1 a - 1 - x a ≠ s → 3 * (s : Int) ≤ g.x1 a - 1 - x a := by
    apply odd_steps (by omega) (Int.dvd_sub hds h2)
    intro h
    apply hodd
    have := Int.dvd_sub hd h
    simpa using this
  have get : ∀ k : Int, 0 ≤ x a + k * s → x a + k * s ≤ g.x1 a - 1 → gridAt .serial g u (move x a (k * s)) = .ok (val g u (move x a (k * s))) :=
    fun k h1 h2 => get_ok has.wf has.ghosts (slide_isNode has hi fun _ => ⟨h1, h2⟩) u
  unfold cubic cub
  dsimp only
  split_ifs with e1 e2
  · rw [get _ (by omega) (by omega), Outcome.ok_bind, get _ (by omega) (by omega), Outcome.ok_bind, get _ (by omega) (by omega), Outcome.ok_bind, get _ (by omega) (by omega), Outcome.ok_bind]
  · rw [get _ (by omega) (by omega), Outcome.ok_bind, get _ (by omega) (by omega), Outcome.ok_bind, get _ (by omega) (by omega), Outcome.ok_bind, get _ (by omega) (by omega), Outcome.ok_bind]
  · have b1 := hlo e1
    have b2 := hhi (by omega)
    rw [get _ (by omega) (by omega), Outcome.ok_bind, get _ (by omega) (by omega), Outcome.ok_bind, get _ (by omega) (by omega), Outcome.ok_bind, get _ (by omega) (by omega), Outcome.ok_bind]

/-- Along every line parallel to an axis the values of `w` are those of a polynomial of degree at most `n` in the coordinate. -/
def PolyAlong (g : Shape) (n : Nat) (w : Int → α) : Prop :=
  ∀ a, a < g.dim → ∀ x, g.IsNode x → ∃ c : Nat → α, ∀ t : Int, 0 ≤ t → t ≤ g.x1 a - 1 → val g w (Function.update x a t) = ∑ i ∈ Finset.range (n + 1), c i * (t : α) ^ i

/-- **C56.** Linear interpolation is exact: if the values on the coarser level and on the boundary are those of a function that is linear along each axis, then afterwards so are all values of
the finer level; all other nodes, and the boundary, are left alone. -/
theorem refine_linear [CharZero α] {g : Shape} {s : Nat} (hs : 0 < s) (ha : Aligned g (2 * s)) (hdim : g.dim ≠ 1) {w : Int → α} (hw : PolyAlong g 1 w) {u : Int → α} (hu : Agree g s 0 w u) :
    ∃ u', refine g s (linear g s) u = .ok u' ∧ (∀ x, Node g s x → val g u' x = val g w x) ∧ ∀ x, g.IsNode x → ¬ Inner g s x → val g u' x = val g u x := by
  have has := aligned_half hs ha
  refine ⟨_, refine_ok has hdim (fun a _ u x hx => linear_ok has u (pass_inner hs hx) a) u, refined_exact has ?_ hu, fun x hx hn => refined_other has _ u hx hn⟩
  intro a hag x hx u hline
  obtain ⟨⟨hi, hodd, -⟩, -⟩ := (passNodes_spec hs).1 hx
  have hodd := hodd hag
  obtain ⟨h0, h1, h2⟩ := hi a hag
  have up := dvd_le (has.dvd a hag) h2 h1
  have lo := Int.le_of_dvd h0 h2
  have even : ∀ k : Int, Odd k → ((2 * s : Nat) : Int) ∣ x a + k * s := by
    intro k ⟨m, hm⟩
    obtain ⟨i, hi⟩ := h2
    rcases Int.even_or_odd' i with ⟨r, hr | hr⟩
    · exact absurd ⟨r, by rw [hi, hr]; push_cast; ring⟩ hodd
    · exact ⟨r + m + 1, by rw [hi, hr, hm]; push_cast; ring⟩
  obtain ⟨c, hc⟩ := hw a hag x (inner_isNode has hi)
  have e1 := even 1 ⟨0, rfl⟩
  have e2 := even (-1) ⟨-1, rfl⟩
  rw [one_mul] at e1
  rw [neg_one_mul] at e2
  have hself : val g w x = val g w (Function.update x a (x a)) := by rw [Function.update_eq_self]
  unfold lin move
  rw [hline _ (by omega) (by omega) e1, hline _ (by omega) (by omega) e2, hself, hc _ (by omega) (by omega), hc _ (by omega) (by omega), hc _ (by omega) (by omega)]
  simp only [Finset.sum_range_succ, Finset.sum_range_zero]
  push_cast
  have : (2 : α) ≠ 0 := by norm_num
  field_simp
  ring

/-- **C56.** Cubic interpolation is exact, next to the boundary as well: the same for functions that are cubic along each axis, on levels with at least six strides along each axis. -/
theorem refine_cubic [CharZero α] {g : Shape} {s : Nat} (hs : 0 < s) (ha : Aligned g (2 * s)) (hdim : g.dim ≠ 1) (hlong : ∀ j, j < g.dim → 6 * (s : Int) ≤ g.x1 j - 1) {w : Int → α}
    (hw : PolyAlong g 3 w) {u : Int → α} (hu : Agree g s 0 w u) :
    ∃ u', refine g s (cubic g s) u = .ok u' ∧ (∀ x, Node g s x → val g u' x = val g w x) ∧ ∀ x, g.IsNode x → ¬ Inner g s x → val g u' x = val g u x := by
  have has := aligned_half hs ha
  refine ⟨_, refine_ok has hdim (fun a hag u x hx => cubic_ok hs ha hlong u hag hx) u, refined_exact has ?_ hu, fun x hx hn => refined_other has _ u hx hn⟩
  intro a hag x hx u hline
  obtain ⟨⟨hi, hodd, -⟩, -⟩ := (passNodes_spec hs).1 hx
  have hodd := hodd hag
  obtain ⟨h0, h1, h2⟩ := hi a hag
  have hl := hlong a hag
  have hds := has.dvd a hag
  have hd := ha.dvd a hag
  have up := dvd_le hds h2 h1
  have lo := Int.le_of_dvd h0 h2
  have hlo := odd_steps h0 h2 hodd
  have hhi : g.x1 a - 1 - x a ≠ s → 3 * (s : Int) ≤ g.x1 a - 1 - x a := by
    apply odd_steps (by omega) (Int.dvd_sub hds h2)
    intro h
    apply hodd
    have := Int.dvd_sub hd h
    simpa using this
  have even : ∀ k : Int, Odd k → ((2 * s : Nat) : Int) ∣ x a + k * s := by
    intro k ⟨m, hm⟩
    obtain ⟨i, hi⟩ := h2
    rcases Int.even_or_odd' i with ⟨r, hr | hr⟩
    · exact absurd ⟨r, by rw [hi, hr]; push_cast; ring⟩ hodd
    · exact ⟨r + m + 1, by rw [hi, hr, hm]; push_cast; ring⟩
  obtain ⟨c, hc⟩ := hw a hag x (inner_isNode has hi)
  have at' : ∀ k : Int, Odd k → 0 ≤ x a + k * s → x a + k * s ≤ g.x1 a - 1 →
      val g u (move x a (k * s)) = ∑ i ∈ Finset.range (3 + 1), c i * ((x a + k * s : Int) : α) ^ i := by
    intro k hk b1 b2
    unfold move
    rw [hline _ b1 b2 (even k hk), hc _ b1 b2]
  have hself : val g w x = val g w (Function.update x a (x a)) := by rw [Function.update_eq_self]
  have h16 : (16 : α) ≠ 0 := by norm_num
  unfold cub
  dsimp only
  rw [hself, hc _ (by omega) (by omega)]
  split_ifs with e1 e2
  · rw [at' (-1) ⟨-1, rfl⟩ (by omega) (by omega), at' 3 ⟨1, rfl⟩ (by omega) (by omega), at' 1 ⟨0, rfl⟩ (by omega) (by omega), at' 5 ⟨2, rfl⟩ (by omega) (by omega)]
    simp only [Finset.sum_range_succ, Finset.sum_range_zero]
    push_cast
    field_simp
    ring
  · rw [at' (-5) ⟨-3, rfl⟩ (by omega) (by omega), at' (-1) ⟨-1, rfl⟩ (by omega) (by omega), at' 1 ⟨0, rfl⟩ (by omega) (by omega), at' (-3) ⟨-2, rfl⟩ (by omega) (by omega)]
    simp only [Finset.sum_range_succ, Finset.sum_range_zero]
    push_cast
    field_simp
    ring
  · have b1 := hlo e1
    have b2 := hhi (by omega)
    rw [at' (-1) ⟨-1, rfl⟩ (by omega) (by omega), at' 1 ⟨0, rfl⟩ (by omega) (by omega), at' (-3) ⟨-2, rfl⟩ (by omega) (by omega), at' 3 ⟨1, rfl⟩ (by omega) (by omega)]
    simp only [Finset.sum_range_succ, Finset.sum_range_zero]
    push_cast
    field_simp
    ring

omit [Field α] in
/-- **C56.** In one dimension `refine` does nothing: no correction reaches the nodes between those of the coarser level. -/
theorem refine_line {g : Shape} (h : g.dim = 1) (s : Nat) (formula : (Int → α) → (Nat → Int) → Nat → Outcome α) (u : Int → α) : refine g s formula u = .ok u := if_pos h

end

end MMSP.Multigrid
