import Verif.MultigridConverge
import Mathlib.Order.Interval.Finset.Basic
import Mathlib.Data.Int.Interval
/-!
# Property C92: in one dimension the multigrid solver is four sweeps

`coarsen` and `refine` do nothing for `grid<1,T>` (`multigrid.hpp` 12-15, 56-59), so what the coarser levels compute sits at even nodes only, and the first half of the next sweep with stride 1
computes the even nodes anew from the odd ones (`poisson.cpp` 25-27). The specification is `redBlack`: one sweep of red-black Gauss-Seidel on a sequence.
-/

namespace MMSP.Multigrid

open Stencil (gridAt)

section
variable {α : Type} [Field α]

/-- Specification: the nodes with remainder `q` modulo 2 are set to what makes the equation `u'' = f` hold there. `N` is the last node, `h` the spacing. -/
def half (N : Int) (h : α) (f : Int → α) (q : Int) (u : Int → α) (i : Int) : α := if 0 < i ∧ i < N ∧ i % 2 = q then (u (i - 1) + u (i + 1) - h ^ 2 * f i) / 2 else u i

/-- Specification: even nodes, then odd ones. -/
def redBlack (N : Int) (h : α) (f u : Int → α) : Int → α := half N h f 1 (half N h f 0 u)

theorem half_congr {N : Int} {h : α} {f : Int → α} {q : Int} {u v : Int → α} (e : ∀ i, 0 ≤ i → i ≤ N → u i = v i) : ∀ i, 0 ≤ i → i ≤ N → half N h f q u i = half N h f q v i := by
  intro i h0 h1
  unfold half
  split_ifs with hc
  · rw [e (i - 1) (by omega) (by omega), e (i + 1) (by omega) (by omega)]
  · exact e i h0 h1

/-- The first half forgets the even nodes. -/
theorem redBlack_forget {N : Int} {h : α} {f : Int → α} {u v : Int → α} (e : ∀ i, 0 ≤ i → i ≤ N → ¬ (0 < i ∧ i < N ∧ i % 2 = 0) → u i = v i) :
    ∀ i, 0 ≤ i → i ≤ N → redBlack N h f u i = redBlack N h f v i := by
  apply half_congr
  intro i h0 h1
  unfold half
  split_ifs with hc
  · rw [e (i - 1) (by omega) (by omega) (by omega), e (i + 1) (by omega) (by omega) (by omega)]
  · exact e i h0 h1 hc

theorem redBlack_congr {N : Int} {h : α} {f : Int → α} {u v : Int → α} (e : ∀ i, 0 ≤ i → i ≤ N → u i = v i) (n : Nat) :
    ∀ i, 0 ≤ i → i ≤ N → (redBlack N h f)^[n] u i = (redBlack N h f)^[n] v i := by
  induction n generalizing u v with
  | zero => exact e
  | succ n ih =>
    simp only [Function.iterate_succ_apply]
    exact ih (redBlack_forget fun i h0 h1 _ => e i h0 h1)

omit [Field α] in
theorem line_raw {g : Shape} {s : Nat} (ha : Aligned g s) (hd : g.dim = 1) (x : Nat → Int) : g.rawOffset x = x 0 := by
  have h1 := ha.ghosts
  have h2 := ha.x0 0 (by omega)
  simp [Shape.rawOffset, encode, hd, Shape.s0, Shape.sx, slice, h1, h2]

theorem relax_line [CharZero α] {g : Shape} {s : Nat} (ha : Aligned g s) (hd : g.dim = 1) {dx : Nat → α} (hdx : dx 0 ≠ 0) (f u : Int → α) (x : Nat → Int) :
    relax g dx 1 f u x = (u (x 0 - 1) + u (x 0 + 1) - dx 0 ^ 2 * f (x 0)) / 2 := by
  unfold relax weight h2 val
  rw [hd, Finset.sum_range_one, Finset.sum_range_one, line_raw ha hd, line_raw ha hd, line_raw ha hd]
  unfold move
  rw [Function.update_self, Function.update_self, Nat.cast_one, Nat.cast_one, ← sub_eq_add_neg]
  field_simp
  ring

theorem half_loop [CharZero α] {g : Shape} (ha : Aligned g 1) (hd : g.dim = 1) {dx : Nat → α} (hdx : dx 0 ≠ 0) (f u : Int → α) {q : Int} {P : (Nat → Int) → Bool}
    (hP : ∀ x, Inner g 1 x → (P x = true ↔ x 0 % 2 = q)) :
    ((inner g 1).filter P).foldl (fun u x => Function.update u (g.rawOffset x) (relax g dx 1 f u x)) u = half (g.x1 0 - 1) (dx 0) f q u := by
  have hL : ∀ x ∈ (inner g 1).filter P, (0 < x 0 ∧ x 0 < g.x1 0 - 1) ∧ x 0 % 2 = q := by
    intro x hx
    have h1 := List.mem_filter.1 hx
    have h2 := ((mem_inner ha.pos).1 h1.1).1
    exact ⟨⟨(h2 0 (by omega)).1, (h2 0 (by omega)).2.1⟩, (hP x h2).1 h1.2⟩
  have hn : (((inner g 1).filter P).map g.rawOffset).Nodup := by
    apply nodup_offsets ha.ghosts
    · exact fun x hx => inner_isNode ha ((mem_inner ha.pos).1 (List.mem_filter.1 hx).1).1
    · exact fun x hx => ((mem_inner ha.pos).1 (List.mem_filter.1 hx).1).2
    · exact (nodup_inner ha.pos).filter _
  funext i
  unfold half
  split_ifs with hc
  · have hin : Inner g 1 fun j => if j = 0 then i else 0 := by
      intro j hj
      obtain rfl : j = 0 := by omega
      simp only [if_true]
      exact ⟨hc.1, hc.2.1, by simp⟩
    have hmem : (fun j => if j = 0 then i else 0) ∈ (inner g 1).filter P := by
      refine List.mem_filter.2 ⟨(mem_inner ha.pos).2 ⟨hin, fun j hj => ?_⟩, ?_⟩
      · rw [if_neg (by omega)]
      · rw [hP _ hin]; simpa using hc.2.2
    have h1 := loop_local hn (e := relax g dx 1 f) (fun v w x hx e => by
      have hx' := hL x hx
      rw [relax_line ha hd hdx, relax_line ha hd hdx, e (x 0 - 1) (Or.inr fun y hy => ?_), e (x 0 + 1) (Or.inr fun y hy => ?_)]
      · have := hL y hy; rw [line_raw ha hd]; omega
      · have := hL y hy; rw [line_raw ha hd]; omega) u hmem
    rw [relax_line ha hd hdx, line_raw ha hd] at h1
    simpa using h1
  · apply loop_other
    intro x hx e
    rw [line_raw ha hd] at e
    have := hL x hx
    rw [e] at this
    exact hc ⟨this.1.1, this.1.2, this.2⟩

/-- The smoother with stride 1 is red-black Gauss-Seidel. -/
theorem swept_line [CharZero α] {g : Shape} (ha : Aligned g 1) (hd : g.dim = 1) {dx : Nat → α} (hdx : dx 0 ≠ 0) (f u : Int → α) :
    swept g dx 1 f u = redBlack (g.x1 0 - 1) (dx 0) f u := by
  have par : ∀ x, Inner g 1 x → parity g x = x 0 % 2 := by
    intro x hx
    unfold parity
    rw [hd, Finset.sum_range_one, Int.tmod_eq_emod_of_nonneg (hx 0 (by omega)).1.le]
  unfold swept order redBlack
  rw [List.foldl_append, half_loop ha hd hdx f u (q := 0) (P := fun x => parity g x = 0), half_loop ha hd hdx (q := 1)]
  · intro x hx
    unfold second
    rw [if_neg (by omega), decide_eq_true_iff, par x hx]
  · intro x hx
    rw [decide_eq_true_iff, par x hx]

/-- Several calls on a coarser level. -/
theorem times_spec {g : Shape} (dx : Nat → α) (gamma nu1 nu2 : Nat) {s n : Nat} (hD : Dyadic g s n) (f : Int → α) (junk : Nat → Int → α) {fuel : Nat} (hfuel : n < fuel) (k : Nat) (v : Int → α) :
    ∃ v', times (mg g dx junk gamma nu1 nu2 fuel s f) k v = some (.ok v') ∧ ∀ x, g.IsNode x → ¬ Inner g s x → val g v' x = val g v x := by
  induction k generalizing v with
  | zero => exact ⟨v, rfl, fun _ _ _ => rfl⟩
  | succ k ih =>
    obtain ⟨v1, a1, a2⟩ := mg_spec dx gamma nu1 nu2 hD f v
    obtain ⟨v2, b1, b2⟩ := ih v1
    refine ⟨v2, ?_, fun x hx hn => by rw [b2 x hx hn, a2 x hx hn]⟩
    rw [times, a1 junk fuel f hfuel fun _ _ => rfl]
    exact b1

omit [Field α] in
theorem line_node {g : Shape} {s : Nat} (ha : Aligned g s) (hd : g.dim = 1) {i : Int} (h0 : 0 ≤ i) (h1 : i ≤ g.x1 0 - 1) : g.IsNode fun _ => i := by
  intro j hj
  obtain rfl : j = 0 := by omega
  rw [ha.x0 0 hj]
  show 0 ≤ i ∧ i < g.x1 0
  omega

omit [Field α] in
theorem line_inner {g : Shape} (hd : g.dim = 1) {s : Nat} {i : Int} : (Inner g s fun _ => i) ↔ 0 < i ∧ i < g.x1 0 - 1 ∧ (s : Int) ∣ i := by
  constructor
  · exact fun h => h 0 (by omega)
  · intro h j hj
    obtain rfl : j = 0 := by omega
    exact h

/-- **C92.** In one dimension a multigrid cycle with stride 1, whatever its kind, is its smoothing steps on that level and nothing else. -/
theorem line_cycle [CharZero α] {g : Shape} (hd : g.dim = 1) {n : Nat} (hD : Dyadic g 1 (n + 1)) {dx : Nat → α} (hdx : dx 0 ≠ 0) (gamma nu1 : Nat) {nu2 : Nat} (h2 : 0 < nu2)
    (f u : Int → α) (junk : Nat → Int → α) {fuel : Nat} (hfuel : n + 1 < fuel) :
    ∃ u', mg g dx junk gamma nu1 nu2 fuel 1 f u = some (.ok u') ∧ ∀ i, 0 ≤ i → i ≤ g.x1 0 - 1 → u' i = (redBlack (g.x1 0 - 1) (dx 0) f)^[nu1 + nu2] u i := by
  obtain ⟨fuel, rfl⟩ : ∃ k, fuel = k + 1 := ⟨fuel - 1, by omega⟩
  obtain ⟨nu2, rfl⟩ : ∃ k, nu2 = k + 1 := ⟨nu2 - 1, by omega⟩
  have ha := hD.aligned
  have hc : ¬ coarsest g 1 = true := fun h => by have := (coarsest_iff hD).1 h; omega
  obtain ⟨r, hr, -⟩ := restrict_ok one_pos hD.aligned2 dx f ((swept g dx 1 f)^[nu1] u)
  obtain ⟨d1, d2, c1, c2, -⟩ := hr f (junk fuel) fun _ _ => rfl
  obtain ⟨v, v1, v2⟩ := times_spec dx gamma nu1 (nu2 + 1) hD.up d2 junk (show n < fuel by omega) gamma fun _ => 0
  refine ⟨(swept g dx 1 f)^[nu2 + 1] fun p => (swept g dx 1 f)^[nu1] u p + v p, ?_, ?_⟩
  · rw [mg, if_neg hc, smooth_ok ha]
    simp only [Outcome.ok_bind, c1, c2]
    rw [v1]
    simp only [Outcome.ok_bind, refine_line hd]
    rw [smooth_ok ha]
  · rw [funext fun u => swept_line ha hd hdx f u, Nat.add_comm nu1, Function.iterate_add_apply (redBlack (g.x1 0 - 1) (dx 0) f) (nu2 + 1) nu1 u, Function.iterate_succ_apply, Function.iterate_succ_apply]
    apply redBlack_congr
    apply redBlack_forget
    intro i h0 h1 hn
    have hv := v2 (fun _ => i) (line_node ha hd h0 h1) fun h => hn (by
      have := (line_inner hd).1 h
      refine ⟨this.1, this.2.1, ?_⟩
      have := this.2.2
      push_cast at this
      omega)
    unfold val at hv
    rw [line_raw ha hd] at hv
    rw [hv, add_zero]

/-- The finer levels. -/
theorem line_levels [CharZero α] {g : Shape} (hd : g.dim = 1) {dx : Nat → α} (hdx : dx 0 ≠ 0) (gamma nu1 : Nat) {nu2 : Nat} (h2 : 0 < nu2) (f : Int → α) (junk : Nat → Int → α) {p : Nat} :
    ∀ {n : Nat}, Dyadic g (2 ^ (p + 1)) (n + 1) → ∀ (u : Int → α) {fuel m : Nat}, n + 1 + (p + 1) < fuel → p + 1 < m →
    ∃ u', levels g dx junk gamma nu1 nu2 fuel f m (2 ^ (p + 1)) u = some (.ok u') ∧ ∀ i, 0 ≤ i → i ≤ g.x1 0 - 1 → u' i = (redBlack (g.x1 0 - 1) (dx 0) f)^[nu1 + nu2] u i := by
  induction p with
  | zero =>
    intro n hD u fuel m hfuel hm
    obtain ⟨m, rfl⟩ : ∃ k, m = k + 2 := ⟨m - 2, by omega⟩
    have hD1 : Dyadic g 1 (n + 1 + 1) := Dyadic.down one_pos (by simpa using hD)
    obtain ⟨u', h1, h3⟩ := line_cycle hd hD1 hdx gamma nu1 h2 f u junk (show n + 1 + 1 < fuel by omega)
    refine ⟨u', ?_, h3⟩
    rw [levels]
    simp only [zero_add, pow_one, show 2 / 2 = 1 by norm_num, refine_line hd, one_ne_zero, if_false, h1]
    rw [levels, if_pos (by norm_num)]
  | succ p ih =>
    intro n hD u fuel m hfuel hm
    obtain ⟨m, rfl⟩ : ∃ k, m = k + 1 := ⟨m - 1, by omega⟩
    have hpos : 0 < 2 ^ (p + 1) := Nat.pos_of_ne_zero (by simp)
    have e2 : 2 ^ (p + 1 + 1) = 2 * 2 ^ (p + 1) := by rw [pow_succ]; ring
    rw [e2] at hD
    have hD1 := hD.down hpos
    obtain ⟨u2, m1, m2⟩ := mg_spec dx gamma nu1 nu2 hD1 f u
    obtain ⟨u', l1, l2⟩ := ih hD1 u2 (fuel := fuel) (m := m) (by omega) (by omega)
    refine ⟨u', ?_, fun i h0 h1 => ?_⟩
    · have hhalf : 2 ^ (p + 1 + 1) / 2 = 2 ^ (p + 1) := by rw [e2]; omega
      rw [levels]
      simp only [hhalf]
      rw [if_neg (by omega)]
      simp only [refine_line hd]
      rw [m1 junk fuel f (by omega) fun _ _ => rfl]
      exact l1
    · rw [l2 i h0 h1]
      obtain ⟨k, hk⟩ : ∃ k, nu1 + nu2 = k + 1 := ⟨nu1 + nu2 - 1, by omega⟩
      rw [hk, Function.iterate_succ_apply, Function.iterate_succ_apply]
      refine redBlack_congr (redBlack_forget fun i h0 h1 hn => ?_) k i h0 h1
      have ha := hD1.aligned
      have hv := m2 (fun _ => i) (line_node ha hd h0 h1) fun h => hn (by
        have := (line_inner hd).1 h
        refine ⟨this.1, this.2.1, ?_⟩
        have h3 : (2 : Int) ∣ ((2 ^ (p + 1) : Nat) : Int) := by rw [pow_succ]; push_cast; exact Dvd.intro_left _ rfl
        have := h3.trans this.2.2
        omega)
      unfold val at hv
      rw [line_raw ha hd] at hv
      exact hv

/-- **C92.** In one dimension, with 2^k+1 nodes and k at least 3, `update` computes four sweeps of red-black Gauss-Seidel from 0. -/
theorem line_update [CharZero α] {g : Shape} (hw : g.Wf) (h0 : g.ghosts = 0) (hd : g.dim = 1) (hx0 : g.x0 0 = 0) {k : Nat} (hx1 : g.x1 0 = ((2 ^ (k + 3) : Nat) : Int) + 1)
    {dx : Nat → α} (hdx : dx 0 ≠ 0) (f : Int → α) (junk : Nat → Int → α) {fuel : Nat} (hfuel : k + 2 < fuel) :
    ∃ u', update g dx junk fuel f = some (.ok u') ∧ ∀ x, g.IsNode x → val g u' x = (redBlack (2 ^ (k + 3)) (dx 0) fun i => val g f fun _ => i)^[4] (fun _ => 0) (x 0) := by
  have hD : Dyadic g (2 ^ (k + 1)) 1 := by
    refine ⟨hw, h0, fun j hj => (show j = 0 by omega) ▸ hx0, Nat.pos_of_ne_zero (by simp), fun i hi => ⟨1, le_rfl, ?_⟩, 0, by omega, ?_⟩
    · obtain rfl : i = 0 := by omega
      rw [hx1, ← pow_add]; congr 3; omega
    · rw [hx1, ← pow_add]; congr 3; omega
  have ha := hD.aligned
  have hc : coarseStride g = ((2 ^ (k + 1) : Nat) : Int) := by
    have e : (2 : Nat) ^ (k + 3) = 4 * 2 ^ (k + 1) := by rw [show k + 3 = (k + 1) + 2 by omega, pow_add]; ring
    have e3 : Int.tdiv (g.x1 0 - 1) 4 = ((2 ^ (k + 1) : Nat) : Int) := by
      rw [hx1, e, add_sub_cancel_right, Int.tdiv_eq_ediv_of_nonneg (by positivity)]
      omega
    obtain ⟨-, j, hj, h3⟩ := coarseStride_spec hw.dim_pos
    rw [h3, show j = 0 by omega, e3]
  have hs : (coarseStride g).toNat = 2 ^ (k + 1) := by rw [hc]; exact Int.toNat_natCast _
  obtain ⟨u', l1, l2⟩ := line_levels hd hdx 1 2 (nu2 := 2) (by norm_num) f junk (n := 0) hD ((swept g dx (2 ^ (k + 1)) f)^[40] fun _ => 0) (fuel := fuel) (m := fuel) (by omega) (by omega)
  refine ⟨u', ?_, fun x hx => ?_⟩
  · unfold update fmg
    simp only [hs]
    rw [if_neg (by simp), smooth_ok ha]
    exact l1
  · have hN : g.x1 0 - 1 = 2 ^ (k + 3) := by rw [hx1, add_sub_cancel_right]; push_cast; rfl
    have hx' := hx 0 (by omega)
    rw [hx0] at hx'
    have hf : (fun i => val g f fun _ => i) = f := by funext i; unfold val; rw [line_raw ha hd]
    unfold val at hf ⊢
    rw [line_raw ha hd, l2 (x 0) hx'.1 (by omega), ← hN]
    show (redBlack _ _ f)^[3 + 1] _ _ = (redBlack _ _ _)^[3 + 1] _ _
    rw [hf, Function.iterate_succ_apply, Function.iterate_succ_apply]
    refine redBlack_congr (redBlack_forget fun i h3 h4 hn => ?_) 3 _ hx'.1 (by omega)
    have hv : ∀ n, val g ((swept g dx (2 ^ (k + 1)) f)^[n] fun _ => 0) (fun _ => i) = 0 := by
      intro n
      obtain ⟨u1, h1, h2⟩ := smooth_other ha dx f n (fun _ => 0) (line_node ha hd h3 h4) fun h => hn (by
        have := (line_inner hd).1 h
        refine ⟨this.1, this.2.1, ?_⟩
        have h3 : (2 : Int) ∣ ((2 ^ (k + 1) : Nat) : Int) := by rw [pow_succ]; push_cast; exact Dvd.intro_left _ rfl
        have := h3.trans this.2.2
        omega)
      rw [smooth_ok ha] at h1
      rw [Outcome.ok.inj h1, h2]
      rfl
    have := hv 40
    unfold val at this
    rw [line_raw ha hd] at this
    exact this

/-- What is far away does not matter. -/
theorem half_zero {N : Int} {h : α} {f : Int → α} {q : Int} {u : Int → α} {c r : Int} (hf : ∀ i, 0 < i → i < N → |i - c| ≤ r → f i = 0) (hu : ∀ i, |i - c| ≤ r + 1 → u i = 0) :
    ∀ i, |i - c| ≤ r → half N h f q u i = 0 := by
  intro i hi
  have := abs_le.1 hi
  unfold half
  split_ifs with hc
  · rw [hf i hc.1 hc.2.1 hi, hu (i - 1) (abs_le.2 ⟨by omega, by omega⟩), hu (i + 1) (abs_le.2 ⟨by omega, by omega⟩)]
    simp
  · exact hu i (abs_le.2 ⟨by omega, by omega⟩)

theorem redBlack_far {N : Int} {h : α} {f : Int → α} {c : Int} (n : Nat) {r : Int} {u : Int → α} (hf : ∀ i, 0 < i → i < N → |i - c| ≤ r + 2 * n - 1 → f i = 0)
    (hu : ∀ i, |i - c| ≤ r + 2 * n → u i = 0) : ∀ i, |i - c| ≤ r → (redBlack N h f)^[n] u i = 0 := by
  induction n generalizing u with
  | zero => intro i hi; exact hu i (by simpa using hi)
  | succ n ih =>
    rw [Function.iterate_succ_apply]
    apply ih
    · exact fun i h0 h1 hi => hf i h0 h1 (by push_cast; omega)
    · apply half_zero
      · exact fun i h0 h1 hi => hf i h0 h1 (by push_cast; omega)
      · apply half_zero
        · exact fun i h0 h1 hi => hf i h0 h1 (by push_cast; omega)
        · exact fun i hi => hu i (by push_cast; omega)

/-- **C92.** In one dimension the right-hand side more than seven nodes away has no influence. -/
theorem line_far [CharZero α] {g : Shape} (hw : g.Wf) (h0 : g.ghosts = 0) (hd : g.dim = 1) (hx0 : g.x0 0 = 0) {k : Nat} (hx1 : g.x1 0 = ((2 ^ (k + 3) : Nat) : Int) + 1)
    {dx : Nat → α} (hdx : dx 0 ≠ 0) {f : Int → α} {x : Nat → Int} (hx : g.IsNode x) (hf : ∀ y, Inner g 1 y → |y 0 - x 0| ≤ 7 → val g f y = 0)
    (junk : Nat → Int → α) {fuel : Nat} (hfuel : k + 2 < fuel) : ∃ u', update g dx junk fuel f = some (.ok u') ∧ val g u' x = 0 := by
  obtain ⟨u', h1, h2⟩ := line_update hw h0 hd hx0 hx1 hdx f junk hfuel
  refine ⟨u', h1, ?_⟩
  rw [h2 x hx]
  refine redBlack_far 4 (r := 0) (c := x 0) (fun i hi0 hi1 hi => ?_) (fun _ _ => rfl) (x 0) (by simp)
  refine hf (fun _ => i) ((line_inner hd).2 ⟨hi0, ?_, by simp⟩) (by simpa using hi)
  rw [hx1, add_sub_cancel_right]
  exact_mod_cast hi1

end

section
variable {α : Type} [Field α] [LinearOrder α] [IsStrictOrderedRing α]

theorem half_small {N : Int} {h : α} {f : Int → α} {F : α} (hf : ∀ i, 0 < i → i < N → |f i| ≤ F) {q : Int} {u : Int → α} {B : α} (hu : ∀ i, |u i| ≤ B) (hF : 0 ≤ F) (i : Int) :
    |half N h f q u i| ≤ B + h ^ 2 * F / 2 := by
  have hh := sq_nonneg h
  unfold half
  split_ifs with hc
  · have h1 := hf i hc.1 hc.2.1
    have h2 := hu (i - 1)
    have h3 := hu (i + 1)
    rw [abs_le] at *
    constructor <;> nlinarith
  · have := hu i
    have := mul_nonneg hh hF
    linarith

/-- **C92.** In one dimension the result is at most four times the squared spacing times the largest right-hand side. -/
theorem line_small {g : Shape} (hw : g.Wf) (h0 : g.ghosts = 0) (hd : g.dim = 1) (hx0 : g.x0 0 = 0) {k : Nat} (hx1 : g.x1 0 = ((2 ^ (k + 3) : Nat) : Int) + 1)
    {dx : Nat → α} (hdx : dx 0 ≠ 0) {f : Int → α} {F : α} (hf : ∀ y, Inner g 1 y → |val g f y| ≤ F)
    (junk : Nat → Int → α) {fuel : Nat} (hfuel : k + 2 < fuel) : ∃ u', update g dx junk fuel f = some (.ok u') ∧ ∀ x, g.IsNode x → |val g u' x| ≤ 4 * (dx 0 ^ 2 * F) := by
  obtain ⟨u', h1, h2⟩ := line_update hw h0 hd hx0 hx1 hdx f junk hfuel
  refine ⟨u', h1, fun x hx => ?_⟩
  rw [h2 x hx]
  have hN : ∀ i : Int, i < 2 ^ (k + 3) → i < g.x1 0 - 1 := fun i hi => by rw [hx1, add_sub_cancel_right]; exact_mod_cast hi
  have hf' : ∀ i : Int, 0 < i → i < 2 ^ (k + 3) → |val g f fun _ => i| ≤ F := fun i hi0 hi1 => hf _ ((line_inner hd).2 ⟨hi0, hN i hi1, by simp⟩)
  have hF : 0 ≤ F := (abs_nonneg _).trans (hf' 1 one_pos (one_lt_pow₀ (by norm_num) (by omega)))
  have step : ∀ n : Nat, ∀ i, |(redBlack (2 ^ (k + 3)) (dx 0) fun i => val g f fun _ => i)^[n] (fun _ => (0 : α)) i| ≤ n * (dx 0 ^ 2 * F) := by
    intro n
    induction n with
    | zero => intro i; simp
    | succ n ih =>
      intro i
      rw [Function.iterate_succ_apply']
      have := half_small hf' (q := 1) (h := dx 0) (half_small hf' (q := 0) (h := dx 0) ih hF) hF i
      refine this.trans (le_of_eq ?_)
      push_cast
      ring
  have := step 4 (x 0)
  exact_mod_cast this

/-- The largest value of a sequence of which every second difference is at least 0 is at an end. -/
theorem max_principle {N : Int} {w : Int → α} (h0 : w 0 ≤ 0) (hN : w N ≤ 0) (h : ∀ i, 0 < i → i < N → 0 ≤ w (i - 1) - 2 * w i + w (i + 1)) : ∀ i, 0 ≤ i → i ≤ N → w i ≤ 0 := by
  intro i hi0 hiN
  -- a largest value, the first of them
  by_contra hpos
  rw [not_le] at hpos
  obtain ⟨m, hm, hmax⟩ := Finset.exists_max_image (Finset.Icc 0 N) w ⟨i, Finset.mem_Icc.2 ⟨hi0, hiN⟩⟩
  have hwm : 0 < w m := hpos.trans_le (hmax i (Finset.mem_Icc.2 ⟨hi0, hiN⟩))
  have hall : ∀ n : Nat, (n : Int) ≤ m → w (m - n) = w m := by
    intro n
    induction n with
    | zero => intro _; simp
    | succ n ih =>
      intro hn
      push_cast at hn ⊢
      have hm' := Finset.mem_Icc.1 hm
      have e := ih (by omega)
      have hne : m - n ≠ N := by intro h; rw [h] at e; linarith
      have h1 := h (m - n) (by omega) (by omega)
      have h2 := hmax (m - n - 1) (Finset.mem_Icc.2 ⟨by omega, by omega⟩)
      have h3 := hmax (m - n + 1) (Finset.mem_Icc.2 ⟨by omega, by omega⟩)
      rw [show m - (↑n + 1) = m - n - 1 by omega]
      rw [e] at h1
      linarith
  have hm' := Finset.mem_Icc.1 hm
  have := hall m.toNat (by omega)
  rw [show m - (m.toNat : Int) = 0 by omega] at this
  linarith

omit [LinearOrder α] [IsStrictOrderedRing α] in
theorem lap_line {g : Shape} {s : Nat} (ha : Aligned g s) (hd : g.dim = 1) (dx : Nat → α) (u : Int → α) (i : Int) :
    lap g dx 1 u (fun _ => i) = (u (i - 1) - 2 * u i + u (i + 1)) / dx 0 ^ 2 := by
  unfold lap val h2
  rw [hd, Finset.sum_range_one, line_raw ha hd, line_raw ha hd, line_raw ha hd]
  unfold move
  rw [Function.update_self, Function.update_self, Nat.cast_one, Nat.cast_one, one_mul, ← sub_eq_add_neg, sq]

/-- **C92.** The solution: with a right-hand side of at least `m`, and 0 on the boundary, it is below the parabola. -/
theorem solution_large {g : Shape} (ha : Aligned g 1) (hd : g.dim = 1) {dx : Nat → α} (hdx : dx 0 ≠ 0) {f sol : Int → α} (hsol : Solves g dx 1 f sol)
    (hbd : ∀ x, g.IsNode x → Boundary g x → val g sol x = 0) {m : α} (hf : ∀ y, Inner g 1 y → m ≤ val g f y) {x : Nat → Int} (hx : g.IsNode x) :
    val g sol x ≤ -(m * dx 0 ^ 2 / 2 * (x 0 * ((g.x1 0 - 1 : Int) - x 0))) := by
  have hx' := hx 0 (by omega)
  rw [ha.x0 0 (by omega)] at hx'
  have hlen : 0 ≤ g.x1 0 - 1 := by omega
  have hend : ∀ i, i = 0 ∨ i = g.x1 0 - 1 → sol i = 0 := by
    intro i hi
    have := hbd (fun _ => i) (line_node ha hd (by omega) (by omega)) ⟨0, by omega, hi⟩
    unfold val at this
    rwa [line_raw ha hd] at this
  have hd2 : 0 < dx 0 ^ 2 := by positivity
  have key := max_principle (N := g.x1 0 - 1) (w := fun i => sol i + m * dx 0 ^ 2 / 2 * (i * ((g.x1 0 - 1 : Int) - i)))
    (by simp [hend 0 (Or.inl rfl)]) (by simp [hend (g.x1 0 - 1) (Or.inr rfl)])
    (fun i hi0 hi1 => by
      have h1 := hsol (fun _ => i) ((line_inner hd).2 ⟨hi0, hi1, by simp⟩)
      have h2 := hf (fun _ => i) ((line_inner hd).2 ⟨hi0, hi1, by simp⟩)
      rw [← h1, lap_line ha hd, le_div_iff₀ hd2] at h2
      push_cast
      nlinarith) (x 0) hx'.1 (by omega)
  unfold val
  rw [line_raw ha hd]
  linarith

/-- **C92.** With a positive right-hand side between `m` and `F` the exact solution at the middle node is at least `m·N²/(32·F)` times what `update` computes there, in absolute values. -/
theorem line_ratio {g : Shape} (hw : g.Wf) (h0 : g.ghosts = 0) (hd : g.dim = 1) (hx0 : g.x0 0 = 0) {k : Nat} (hx1 : g.x1 0 = ((2 ^ (k + 3) : Nat) : Int) + 1)
    {dx : Nat → α} (hdx : dx 0 ≠ 0) {f sol : Int → α} (hsol : Solves g dx 1 f sol) (hbd : ∀ x, g.IsNode x → Boundary g x → val g sol x = 0) {m F : α} (hm : 0 < m)
    (hf : ∀ y, Inner g 1 y → m ≤ val g f y ∧ val g f y ≤ F) (junk : Nat → Int → α) {fuel : Nat} (hfuel : k + 2 < fuel) :
    ∃ u', update g dx junk fuel f = some (.ok u') ∧ |val g u' fun _ => 2 ^ (k + 2)| * (m * (2 ^ (k + 3)) ^ 2) ≤ 32 * F * |val g sol fun _ => 2 ^ (k + 2)| := by
  have ha : Aligned g 1 := ⟨hw, h0, fun j hj => (show j = 0 by omega) ▸ hx0, one_pos, fun _ _ => by simp⟩
  obtain ⟨u', h1, h2⟩ := line_small hw h0 hd hx0 hx1 hdx (F := F) (fun y hy => by
    have := hf y hy
    rw [abs_of_nonneg (hm.le.trans this.1)]
    exact this.2) junk hfuel
  refine ⟨u', h1, ?_⟩
  have hN : g.x1 0 - 1 = 2 ^ (k + 3) := by rw [hx1, add_sub_cancel_right]; push_cast; rfl
  have hp : (2 : Int) ^ (k + 3) = 2 * 2 ^ (k + 2) := by rw [pow_succ]; ring
  have hp0 : (0 : Int) < 2 ^ (k + 2) := by positivity
  have hnode := line_node (i := 2 ^ (k + 2)) ha hd (by omega) (by omega)
  have b1 := h2 _ hnode
  have b2 := solution_large ha hd hdx hsol hbd (fun y hy => (hf y hy).1) hnode
  rw [hN] at b2
  have hp' : (2 : α) ^ (k + 3) = 2 * 2 ^ (k + 2) := by rw [pow_succ]; ring
  push_cast at b2
  rw [hp'] at b2 ⊢
  have hF : 0 < F := by
    have := hf (fun _ => 2 ^ (k + 2)) ((line_inner hd).2 ⟨hp0, by omega, by simp⟩)
    exact hm.trans_le (this.1.trans this.2)
  have hq : (0 : α) < 2 ^ (k + 2) := by positivity
  generalize (2 : α) ^ (k + 2) = q at *
  have hsq := sq_nonneg (dx 0)
  have e1 : m * dx 0 ^ 2 / 2 * (q * (2 * q - q)) ≤ |val g sol fun _ => 2 ^ (k + 2)| := by
    rw [← abs_neg]
    exact le_trans (by linarith) (le_abs_self _)
  have e2 := mul_le_mul_of_nonneg_right b1 (show 0 ≤ m * (2 * q) ^ 2 by positivity)
  refine e2.trans ?_
  have e3 := mul_le_mul_of_nonneg_left e1 (show 0 ≤ 32 * F by positivity)
  refine le_trans (le_of_eq ?_) e3
  ring

/-- **C92.** In one dimension, from 17 nodes on, `update` does not solve the equation: not with a right-hand side that is 0 except at the first inner node. -/
theorem line_wrong {g : Shape} (hw : g.Wf) (h0 : g.ghosts = 0) (hd : g.dim = 1) (hx0 : g.x0 0 = 0) {k : Nat} (hx1 : g.x1 0 = ((2 ^ (k + 4) : Nat) : Int) + 1)
    {dx : Nat → α} (hdx : dx 0 ≠ 0) {f : Int → α} (hf1 : (val g f fun _ => 1) ≠ 0) (hf : ∀ y, Inner g 1 y → y 0 ≠ 1 → val g f y = 0)
    (junk : Nat → Int → α) {fuel : Nat} (hfuel : k + 3 < fuel) : ∃ u', update g dx junk fuel f = some (.ok u') ∧ ¬ Solves g dx 1 f u' := by
  have ha : Aligned g 1 := ⟨hw, h0, fun j hj => (show j = 0 by omega) ▸ hx0, one_pos, fun _ _ => by simp⟩
  have h16 : (16 : Int) ≤ g.x1 0 - 1 := by
    rw [hx1, add_sub_cancel_right, show k + 4 = 4 + k by omega, pow_add]
    have : 1 ≤ 2 ^ k := Nat.one_le_two_pow
    push_cast
    have h1 : (1 : Int) ≤ 2 ^ k := by exact_mod_cast this
    linarith
  obtain ⟨u', h1, h2⟩ := line_update (k := k + 1) hw h0 hd hx0 hx1 hdx f junk (show k + 1 + 2 < fuel by omega)
  refine ⟨u', h1, fun hsol => ?_⟩
  have hval : ∀ i, val g u' (fun _ => i) = u' i := fun i => by unfold val; rw [line_raw ha hd]
  have hd2 : dx 0 ^ 2 ≠ 0 := pow_ne_zero 2 hdx
  -- 0 from node 9 on
  have far : ∀ i, 9 ≤ i → i ≤ g.x1 0 - 1 → u' i = 0 := by
    intro i hi9 hiN
    obtain ⟨u2, e1, e2⟩ := line_far (k := k + 1) hw h0 hd hx0 hx1 hdx (line_node ha hd (by omega) hiN)
      (fun y hy hyi => hf y hy (by have := abs_le.1 hyi; omega)) junk (show k + 1 + 2 < fuel by omega)
    rw [h1] at e1
    have : u' = u2 := Outcome.ok.inj (Option.some.inj e1)
    rw [← hval, this, e2]
  have zero : u' 0 = 0 := by
    rw [← hval, h2 _ (line_node ha hd le_rfl (by omega))]
    have keep : ∀ n : Nat, ∀ u : Int → α, (redBlack (2 ^ (k + 1 + 3)) (dx 0) fun i => val g f fun _ => i)^[n] u 0 = u 0 := by
      intro n
      induction n with
      | zero => intro u; rfl
      | succ n ih => intro u; rw [Function.iterate_succ_apply, ih]; simp [redBlack, half]
    rw [keep]
  -- 0 from node 1 on
  have back : ∀ n : Nat, n ≤ 8 → u' (9 - n) = 0 ∧ u' (10 - n) = 0 := by
    intro n
    induction n with
    | zero => intro _; exact ⟨far 9 le_rfl (by omega), far 10 (by omega) (by omega)⟩
    | succ n ih =>
      intro hn
      obtain ⟨e1, e2⟩ := ih (by omega)
      have hin : Inner g 1 fun _ => 9 - (n : Int) := (line_inner hd).2 ⟨by omega, by omega, by simp⟩
      have h3 := hsol _ hin
      rw [hf _ hin (by show 9 - (n : Int) ≠ 1; omega), lap_line ha hd, div_eq_zero_iff, or_iff_left hd2, e1, show 9 - (n : Int) + 1 = 10 - n by omega, e2] at h3
      refine ⟨?_, by rw [show (10 : Int) - ((n + 1 : Nat) : Int) = 9 - n by push_cast; omega]; exact e1⟩
      rw [show (9 : Int) - ((n + 1 : Nat) : Int) = 9 - n - 1 by push_cast; omega]
      linarith
  have hb := back 8 le_rfl
  have hin : Inner g 1 fun _ => (1 : Int) := (line_inner hd).2 ⟨by omega, by omega, by simp⟩
  have h3 := hsol _ hin
  rw [lap_line ha hd] at h3
  apply hf1
  rw [← h3]
  norm_num at hb
  norm_num [hb.1, hb.2, zero]

end

/-! ## Examples -/

/-- The grid of `generate(1)`, `poisson.cpp` 194-195. -/
def lineShape : Shape := ⟨1, fun _ => 0, fun _ => 2049, fun _ => .neumann, fun _ => .neumann, 0⟩

theorem lineShape_wf : lineShape.Wf := ⟨one_pos, fun _ _ => by show (0 : Int) < 2049; norm_num, le_refl _⟩

-- the 2049 nodes of the example, right-hand side between 1 and 3 (it is the exponential of a number between 0 and 1): at the middle node the result is more than 43000 times too small
example (f sol : Int → ℚ) (hsol : Solves lineShape (fun _ => 1) 1 f sol) (hbd : ∀ x, lineShape.IsNode x → Boundary lineShape x → val lineShape sol x = 0)
    (hf : ∀ y, Inner lineShape 1 y → 1 ≤ val lineShape f y ∧ val lineShape f y ≤ 3) (junk : Nat → Int → ℚ) :
    ∃ u', update lineShape (fun _ => 1) junk 12 f = some (.ok u') ∧ |val lineShape u' fun _ => 1024| * 43000 ≤ |val lineShape sol fun _ => 1024| := by
  obtain ⟨u', h1, h2⟩ := line_ratio (k := 8) lineShape_wf rfl rfl rfl (by decide) (dx := fun _ => (1 : ℚ)) one_ne_zero hsol hbd one_pos hf junk (show 8 + 2 < 12 by norm_num)
  refine ⟨u', h1, ?_⟩
  norm_num at h2
  have := abs_nonneg (val lineShape u' fun _ => 1024)
  linarith

example (junk : Nat → Int → ℚ) : ∃ u', update lineShape (fun _ => (1 : ℚ)) junk 12 (fun p => if p = 1 then 1 else 0) = some (.ok u') ∧ ¬ Solves lineShape (fun _ => 1) 1 (fun p => if p = 1 then 1 else 0) u' := by
  have ha : Aligned lineShape 1 := ⟨lineShape_wf, rfl, fun _ _ => rfl, one_pos, fun _ _ => by simp⟩
  refine line_wrong (k := 7) lineShape_wf rfl rfl rfl (by decide) (dx := fun _ => (1 : ℚ)) one_ne_zero ?_ ?_ junk (by norm_num)
  · unfold val; rw [line_raw ha rfl]; norm_num
  · intro y _ hy; unfold val; rw [line_raw ha rfl]; exact if_neg hy

end MMSP.Multigrid
