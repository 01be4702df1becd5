import Verif.MultigridRun
import Verif.DecompProps
/-!
# Property C93: the multigrid solver on several ranks

`smooth` of `examples/differential_equations/elliptic/Poisson/poisson.cpp` 13-99 starts its loops at the stride, counted from the origin of the whole grid, and stops at the end of the rank's own part
(`MMSP::x1`). A rank whose part does not begin at the origin of the first axis therefore begins with elements below its memory. The definitions are those of `Multigrid` with the build as a parameter.
-/

namespace MMSP.Multigrid

open Stencil (gridAt)

variable {α : Type} [Field α]

/-- `relaxed` (`poisson.cpp` 27, 54-55, 88-90) in either build. -/
def relaxedOn (bd : Build) (g : Shape) (dx : Nat → α) (s : Nat) (f u : Int → α) (x : Nat → Int) : Outcome α :=
  (gridAt bd g f x).bind fun fx =>
  (List.range g.dim).foldlM (fun sum a => (gridAt bd g u (move x a (-s))).bind fun lo => (gridAt bd g u (move x a s)).bind fun hi =>
    .ok (sum + weight g dx s / h2 dx s a * (lo + hi))) (-weight g dx s * fx)

/-- `sweep` (`poisson.cpp` 25-31, 51-60, 84-97) in either build; the loops run to the limits `x1`, `y1`, `z1` of the process (18, 40-41, 69-71). -/
def sweepOn (bd : Build) (g : Shape) (dx : Nat → α) (s : Nat) (f u : Int → α) : Outcome (Int → α) :=
  (order g s).foldlM (fun u x => (relaxedOn bd g dx s f u x).bind fun v => store g u (g.atVec bd x) v) u

/-- `smooth` (`poisson.cpp` 13-99) in either build. -/
def smoothOn (bd : Build) (g : Shape) (dx : Nat → α) (s : Nat) (f : Int → α) : Nat → (Int → α) → Outcome (Int → α)
  | 0, u => .ok u
  | n + 1, u => (sweepOn bd g dx s f u).bind (smoothOn bd g dx s f n)

/-- `update` and `FMG` (`poisson.cpp` 236-248, `multigrid.hpp` 197-212) in either build; `finer` is the loop over the finer levels (208-211), whatever it does. -/
def updateOn (bd : Build) (g : Shape) (dx : Nat → α) (finer : Nat → (Int → α) → Option (Outcome (Int → α))) (f : Int → α) : Option (Outcome (Int → α)) :=
  let s := (coarseStride g).toNat
  if s = 0 then (if g.x1 0 - 1 > 0 then none else some (.ok fun _ => 0)) else
  match smoothOn bd g dx s f 40 fun _ => 0 with
  | .ub => some .ub
  | .abort c => some (.abort c)
  | .ok u => finer s u

/-- In the serial build these are the functions of `Multigrid`. -/
theorem updateOn_serial (g : Shape) (dx : Nat → α) (junk : Nat → Int → α) (fuel : Nat) (f : Int → α) :
    updateOn .serial g dx (levels g dx junk 1 2 2 fuel f fuel) f = update g dx junk fuel f := by
  have h1 : ∀ s n u, smoothOn .serial g dx s f n u = smooth g dx s f n u := by
    intro s n
    induction n with
    | zero => intro u; rfl
    | succ n ih =>
      intro u
      rw [smoothOn, smooth, show smoothOn .serial g dx s f n = smooth g dx s f n from funext ih]
      rfl
  unfold updateOn update fmg
  simp only [h1]
  rfl

/-! ## Loops with an undefined step -/

theorem fold_never {β γ : Type} {body : β → γ → Outcome β} {L : List γ} (h : ∀ b, ∀ x ∈ L, ∀ c, body b x ≠ .abort c) (b : β) (c : Int) : L.foldlM body b ≠ .abort c := by
  induction L generalizing b with
  | nil => rw [List.foldlM_nil, Outcome.pure_eq]; (intro h; cases h)
  | cons x L ih =>
    rw [List.foldlM_cons, Outcome.bind_eq]
    cases e : body b x with
    | ok v => rw [Outcome.ok_bind]; exact ih (fun b x hx => h b x (by simp [hx])) v
    | ub => rw [Outcome.ub_bind]; (intro h; cases h)
    | abort k => exact absurd e (h b x (by simp) k)

theorem fold_ub {β γ : Type} {body : β → γ → Outcome β} {L : List γ} (h : ∀ b, ∀ x ∈ L, ∀ c, body b x ≠ .abort c) {y : γ} (hy : y ∈ L) (hub : ∀ b, body b y = .ub) (b : β) : L.foldlM body b = .ub := by
  induction L generalizing b with
  | nil => cases hy
  | cons x L ih =>
    rw [List.foldlM_cons, Outcome.bind_eq]
    rcases List.mem_cons.1 hy with rfl | hy
    · rw [hub, Outcome.ub_bind]
    · cases e : body b x with
      | ok v => rw [Outcome.ok_bind]; exact ih (fun b x hx => h b x (by simp [hx])) hy v
      | ub => rw [Outcome.ub_bind]
      | abort k => exact absurd e (h b x (by simp) k)

omit [Field α] in
theorem get_cases (bd : Build) (g : Shape) (u : Int → α) (x : Nat → Int) : gridAt bd g u x = .ub ∨ ∃ v, gridAt bd g u x = .ok v := by
  unfold gridAt deref
  split_ifs
  · exact Or.inr ⟨_, rfl⟩
  · exact Or.inl rfl

theorem relaxedOn_never (bd : Build) (g : Shape) (dx : Nat → α) (s : Nat) (f u : Int → α) (x : Nat → Int) (c : Int) : relaxedOn bd g dx s f u x ≠ .abort c := by
  unfold relaxedOn
  rcases get_cases bd g f x with e | ⟨fx, e⟩
  · rw [e, Outcome.ub_bind]; (intro h; cases h)
  · rw [e, Outcome.ok_bind]
    apply fold_never
    intro b a _ c
    rcases get_cases bd g u (move x a (-s)) with e | ⟨lo, e⟩
    · rw [e, Outcome.ub_bind]; (intro h; cases h)
    · rw [e, Outcome.ok_bind]
      rcases get_cases bd g u (move x a s) with e | ⟨hi, e⟩
      · rw [e, Outcome.ub_bind]; (intro h; cases h)
      · rw [e, Outcome.ok_bind]; (intro h; cases h)

/-! ## A rank above the origin -/

/-- A part of a grid that starts at the origin, not the first along axis 0: its memory begins above the origin there, and the faces that are not faces of the whole grid are internal. -/
structure Upper (g : Shape) : Prop where
  wf : g.Wf
  above : 0 < g.s0 0
  faces : ∀ j, j < g.dim → g.x0 j = 0 ∨ g.b0 j = .parallel

omit [Field α] in
/-- Below the memory along axis 0 and not above it along the others: no element. -/
theorem offset_neg {g : Shape} (hw : g.Wf) {z : Nat → Int} (h0 : z 0 < g.s0 0) (hz : ∀ j, j < g.dim → z j < g.s1 j) : g.rawOffset z < 0 := by
  have hlen : ∀ j, j < g.dim → 0 < g.s1 j - g.s0 j := fun j hj => by
    have h1 := hw.2 j hj
    have h2 := hw.3
    unfold Shape.s1 Shape.s0
    omega
  have hd := hw.dim_pos
  have hbox : InBox g.dim (fun j => g.s1 j - g.s0 j) fun j => g.s1 j - g.s0 j - 1 := fun j hj => ⟨by have := hlen j hj; show 0 ≤ g.s1 j - g.s0 j - 1; omega, by show g.s1 j - g.s0 j - 1 < g.s1 j - g.s0 j; omega⟩
  have h1 := (tailSum_bounds hbox (j := 1) (by omega)).2
  rw [tailProd_succ] at h1
  have hpos := slice_pos hlen
  unfold Shape.rawOffset
  rw [← tailSum_zero, tailSum_step hd]
  have h2 : tailSum g.dim g.sx (fun j => z j - g.s0 j) 1 ≤ tailSum g.dim (slice g.dim fun j => g.s1 j - g.s0 j) (fun j => g.s1 j - g.s0 j - 1) 1 := by
    unfold tailSum
    apply Finset.sum_le_sum
    intro j hj
    have hj' := (Finset.mem_Ico.1 hj).2
    apply mul_le_mul_of_nonneg_right _ (hpos j).le
    have := hz j hj'
    show z j - g.s0 j ≤ g.s1 j - g.s0 j - 1
    omega
  have h3 : (z 0 - g.s0 0) * g.sx 0 ≤ -1 * g.sx 0 := mul_le_mul_of_nonneg_right (by omega) (hpos 0).le
  have e : g.sx 0 = slice g.dim (fun j => g.s1 j - g.s0 j) 0 := rfl
  rw [e] at h3
  show (z 0 - g.s0 0) * g.sx 0 + _ < 0
  rw [e]
  rw [zero_add] at *
  linarith

/-- **C93.** On a rank whose memory begins above the origin of the first axis, `update` has undefined behaviour, whatever the contents of the grid; if some axis is so short that the first stride is 0
it never returns. -/
theorem upper_update {g : Shape} (hu : Upper g) (dx : Nat → α) (finer : Nat → (Int → α) → Option (Outcome (Int → α))) (f : Int → α) :
    updateOn .mpi g dx finer f = if 0 < coarseStride g then some .ub else none := by
  have hw := hu.wf
  have hd := hw.dim_pos
  have habove := hu.above
  have hgh := hw.3
  have hx00 : 0 < g.x0 0 := by unfold Shape.s0 at habove; omega
  have hx10 := hw.2 0 hd
  unfold updateOn
  by_cases hs : 0 < coarseStride g
  · rw [if_pos hs]
    obtain ⟨s, e⟩ : ∃ s : Nat, coarseStride g = s := ⟨(coarseStride g).toNat, by omega⟩
    have hs0 : 0 < s := by omega
    have hmin : ∀ j, j < g.dim → 4 * (s : Int) ≤ g.x1 j - 1 := by
      intro j hj
      have h1 := (coarseStride_spec hd).1 j hj
      rw [e] at h1
      have h2 : 0 ≤ g.x1 j - 1 := by
        by_contra hc
        have h3 : Int.tdiv (g.x1 j - 1) 4 = -Int.tdiv (1 - g.x1 j) 4 := by rw [← Int.neg_tdiv]; congr 1; omega
        have h4 := Int.tdiv_nonneg (a := 1 - g.x1 j) (b := 4) (by omega) (by norm_num)
        omega
      rw [Int.tdiv_eq_ediv_of_nonneg h2] at h1
      omega
    simp only [e, Int.toNat_natCast]
    rw [if_neg (by omega)]
    -- the first node of the loops
    let y : Nat → Int := fun j => if j < g.dim then s else 0
    have hy : y ∈ order g s := by
      have hin : y ∈ inner g s := (mem_inner hs0).2 ⟨fun j hj => by
        have := hmin j hj
        simp only [y, if_pos hj]
        exact ⟨by omega, by omega, dvd_rfl⟩, fun j hj => if_neg (by omega)⟩
      have hsum : 0 ≤ ∑ j ∈ Finset.range g.dim, y j := Finset.sum_nonneg fun j _ => by simp only [y]; split_ifs <;> omega
      have hm : parity g y = 0 ∨ parity g y = 1 := by
        unfold parity
        rw [Int.tmod_eq_emod_of_nonneg hsum]
        omega
      unfold order
      rw [List.mem_append, List.mem_filter, List.mem_filter]
      rcases hm with h | h
      · exact Or.inl ⟨hin, by simp [h]⟩
      · refine Or.inr ⟨hin, ?_⟩
        unfold second
        split_ifs <;> simp [h]
    have hread : ∀ u : Int → α, gridAt .mpi g u (move y 0 (-s)) = .ub := by
      intro u
      have hz : ∀ j, j < g.dim → checkBoundary .mpi (move y 0 (-s) j) (g.x0 j) (g.x1 j) (g.b0 j) (g.b1 j) = move y 0 (-s) j := by
        intro j hj
        have hlt : move y 0 (-s) j < g.x1 j := by
          have := hmin j hj
          unfold move
          by_cases e : j = 0
          · subst e; rw [Function.update_self]; simp only [y, if_pos hj]; omega
          · rw [Function.update_of_ne e]; simp only [y, if_pos hj]; omega
        rcases hu.faces j hj with h | h
        · have hj0 : j ≠ 0 := by rintro rfl; omega
          unfold checkBoundary
          have : ¬ move y 0 (-s) j < g.x0 j := by unfold move; rw [Function.update_of_ne hj0]; simp only [y, if_pos hj]; omega
          rw [if_neg this, if_neg (by omega)]
        · unfold checkBoundary
          rw [h]
          split_ifs <;> simp_all
          all_goals omega
      have hneg : g.rawOffset (move y 0 (-s)) < 0 := by
        apply offset_neg hw
        · unfold move; rw [Function.update_self]; simp only [y, if_pos hd]; omega
        · intro j hj
          have := hmin j hj
          unfold move Shape.s1
          by_cases e : j = 0
          · subst e; rw [Function.update_self]; simp only [y, if_pos hj]; omega
          · rw [Function.update_of_ne e]; simp only [y, if_pos hj]; omega
      unfold gridAt deref
      rw [g.atVec_eq_raw .mpi hz, if_neg (by omega)]
    have hrelax : ∀ u : Int → α, relaxedOn .mpi g dx s f u y = .ub := by
      intro u
      unfold relaxedOn
      rcases get_cases .mpi g f y with e | ⟨fx, e⟩
      · rw [e, Outcome.ub_bind]
      · rw [e, Outcome.ok_bind]
        obtain ⟨n, hn⟩ : ∃ n, g.dim = n + 1 := ⟨g.dim - 1, by omega⟩
        rw [hn, List.range_succ_eq_map, List.foldlM_cons, hread, Outcome.ub_bind, Outcome.bind_eq, Outcome.ub_bind]
    have hsweep : ∀ u : Int → α, sweepOn .mpi g dx s f u = .ub := by
      intro u
      unfold sweepOn
      apply fold_ub _ hy
      · intro b; rw [hrelax, Outcome.ub_bind]
      · intro b x _ c
        cases e : relaxedOn .mpi g dx s f b x with
        | ok v => rw [Outcome.ok_bind]; unfold store; split_ifs <;> (intro h; cases h)
        | ub => rw [Outcome.ub_bind]; (intro h; cases h)
        | abort k => exact absurd e (relaxedOn_never .mpi g dx s f b x k)
    rw [smoothOn, hsweep, Outcome.ub_bind]
  · rw [if_neg hs]
    have : (coarseStride g).toNat = 0 := by omega
    simp only [this, if_true]
    rw [if_pos (by omega)]

omit [Field α] in
/-- The parts of a decomposed grid that do not begin within the ghost width of the origin of the first axis. -/
theorem local_upper {np d : Nat} {g1 : Nat → Int} {ghosts : Int} (hnp : 0 < np) (hd : 0 < d) (hg : ∀ j, j < d → 0 ≤ g1 j) (hgh : 0 ≤ ghosts)
    (hfit : ∀ j, j < d → Decomp.choose np d (fun _ => 0) g1 j ≤ g1 j) {r : Int} (h0 : 0 ≤ r) (h1 : r < np) (ha : ghosts < (Decomp.localShape d (fun _ => 0) g1 ghosts np r).x0 0) :
    Upper (Decomp.localShape d (fun _ => 0) g1 ghosts np r) := by
  refine ⟨Decomp.localShape_wf hnp hd hg hgh (fun j hj => by simpa using hfit j hj) h0 h1, ?_, fun j hj => ?_⟩
  · unfold Shape.s0
    show 0 < (Decomp.localShape d (fun _ => 0) g1 ghosts np r).x0 0 - ghosts
    omega
  · by_cases e : (Decomp.localShape d (fun _ => 0) g1 ghosts np r).x0 j = 0
    · exact Or.inl e
    · refine Or.inr ?_
      show (if (Decomp.axisLimits 0 (g1 j) _ _).1 ≠ 0 then BC.parallel else BC.periodic) = _
      exact if_pos e

/-- **C93.** A one-dimensional grid on at least two ranks, at least twice as many nodes as ranks (one ghost cell): on the last rank `update` has undefined behaviour, or never returns. -/
theorem line_ranks {np : Nat} (hnp : 2 ≤ np) {n : Int} (hn : 2 * (np : Int) ≤ n) (dx : Nat → α) (finer : Nat → (Int → α) → Option (Outcome (Int → α))) (f u : Int → α) :
    updateOn .mpi (Decomp.localShape 1 (fun _ => 0) (fun _ => n) 1 np (np - 1)) dx finer f ≠ some (.ok u) ∧
      (5 ≤ n → updateOn .mpi (Decomp.localShape 1 (fun _ => 0) (fun _ => n) 1 np (np - 1)) dx finer f = some .ub) := by
  have hp := Decomp.choose_procGrid (np := np) (d := 1) (g0 := fun _ => 0) (g1 := fun _ => n) (by omega) one_pos (fun _ _ => by omega)
  have hp0 : Decomp.choose np 1 (fun _ => 0) (fun _ => n) 0 = np := by simpa using hp.2
  have hlim := Decomp.lim_eq (g0 := fun _ => 0) (g1 := fun _ => n) hp (fun _ _ => by omega) (rank := (np : Int) - 1) (by omega) (by omega) (j := 0) one_pos
  have hpos : Decomp.pos 1 (Decomp.choose np 1 (fun _ => 0) fun _ => n) ((np : Int) - 1) 0 = np - 1 := by
    simp [Decomp.pos, digit, digitRest, Decomp.sp, slice]
  rw [hpos, hp0] at hlim
  have hx0 : (Decomp.localShape 1 (fun _ => 0) (fun _ => n) 1 np (np - 1)).x0 0 = Decomp.cut 0 n np (np - 1) := congrArg Prod.fst hlim
  have hx1 : (Decomp.localShape 1 (fun _ => 0) (fun _ => n) 1 np (np - 1)).x1 0 = n := by
    have : (Decomp.localShape 1 (fun _ => 0) (fun _ => n) 1 np (np - 1)).x1 0 = Decomp.cut 0 n np (np - 1 + 1) := congrArg Prod.snd hlim
    rw [this, sub_add_cancel, Decomp.cut_last (by omega)]
  have hq : 2 ≤ n / (np : Int) := (Int.le_ediv_iff_mul_le (by omega)).2 hn
  have hup : Upper (Decomp.localShape 1 (fun _ => 0) (fun _ => n) 1 np (np - 1)) := by
    refine local_upper (by omega) one_pos (fun _ _ => by omega) (by norm_num) (fun j hj => ?_) (by omega) (by omega) ?_
    · obtain rfl : j = 0 := by omega
      rw [hp0]; omega
    · rw [hx0]
      unfold Decomp.cut
      have h1 : 0 ≤ (n - 0) % (np : Int) := Int.emod_nonneg _ (by omega)
      have h2 : 2 ≤ ((np : Int) - 1) * ((n - 0) / np) := by
        rw [sub_zero]
        nlinarith
      have h3 : 0 ≤ min ((np : Int) - 1) ((n - 0) % np) := le_min (by omega) h1
      omega
  rw [upper_update hup]
  constructor
  · split_ifs
    · intro h; cases h
    · intro h; cases h
  · intro h5
    rw [if_pos]
    obtain ⟨-, j, hj, e⟩ := coarseStride_spec hup.wf.dim_pos
    have hj0 : j = 0 := by have : j < 1 := hj; omega
    rw [e, hj0, hx1, Int.tdiv_eq_ediv_of_nonneg (by omega)]
    omega

/-! ## Examples -/

-- the 2049 nodes of `generate(1)` (`poisson.cpp` 194-195) on two ranks
example (f : Int → ℚ) (finer : Nat → (Int → ℚ) → Option (Outcome (Int → ℚ))) : updateOn .mpi (Decomp.localShape 1 (fun _ => 0) (fun _ => 2049) 1 2 1) (fun _ => 1) finer f = some .ub :=
  (line_ranks (np := 2) le_rfl (by norm_num) (fun _ => 1) finer f fun _ => 0).2 (by norm_num)

-- a 9 by 5 grid on two ranks is cut along the first axis, and the second rank begins at 5
example : Upper (Decomp.localShape 2 (fun _ => 0) (fun j => if j = 0 then 9 else 5) 1 2 1) := by
  have e : ∀ j, j < 2 → Decomp.choose 2 2 (fun _ => 0) (fun j => if j = 0 then (9 : Int) else 5) j = if j = 0 then 2 else 1 := by decide +kernel
  refine local_upper (by norm_num) (by norm_num) (fun j _ => by split_ifs <;> norm_num) (by norm_num) (fun j hj => ?_) (by norm_num) (by norm_num) (by decide +kernel)
  rw [e j hj]
  split_ifs <;> norm_num

end MMSP.Multigrid
