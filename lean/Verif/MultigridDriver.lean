import Verif.MultigridLine
import Verif.DriverProps
/-!
# Property C120: what the Poisson example writes when the driver calls it more than once

`update` of the Poisson example does not take steps: it solves with the grid as right-hand side and puts the result in its
place (`poisson.cpp` 236-248), so the next call of the driver (`include/MMSP.main.hpp` 278-298) has the previous result as
right-hand side.

Exact arithmetic in an ordered field; serial build; one dimension.
-/

namespace MMSP.Multigrid

open Driver (Params count main params iterationsStart NamesFit)
open FileIO (getline extractInt ascii)

/-- What is left of the program between two calls of `update`: how often it was called, and the grid (`none` if a call
did not return). -/
abbrev Calls (α : Type) := Nat × Option (Outcome (Int → α))

/-- `MMSP::update(grid, increment)` as called in `include/MMSP.main.hpp` 279 with `update` of `poisson.cpp` 236-248, which does
not use its second argument. `junk c` is the content of fresh memory in call `c`. -/
def call {α : Type} [Field α] (g : Shape) (dx : Nat → α) (junk : Nat → Nat → Int → α) (fuel : Nat) (r : Calls α) (_increment : Int) : Calls α :=
  match r.2 with
  | some (.ok f) => (r.1 + 1, update g dx (junk r.1) fuel f)
  | _ => (r.1 + 1, r.2)

section
variable {α : Type} [Field α] [LinearOrder α] [IsStrictOrderedRing α]

/-- A half sweep with a positive right-hand side from values at most 0. -/
theorem half_neg {N : Int} {h : α} (hh : h ≠ 0) {f : Int → α} (hf : ∀ i, 0 < i → i < N → 0 < f i) {q : Int} {u : Int → α} (hu : ∀ i, u i ≤ 0) (i : Int) :
    half N h f q u i ≤ 0 ∧ (0 < i ∧ i < N ∧ i % 2 = q → half N h f q u i < 0) := by
  have key : 0 < i ∧ i < N ∧ i % 2 = q → half N h f q u i < 0 := by
    intro hc
    unfold half
    rw [if_pos hc]
    have h1 := hf i hc.1 hc.2.1
    have h2 : 0 < h ^ 2 := by positivity
    have h3 := mul_pos h2 h1
    have := hu (i - 1)
    have := hu (i + 1)
    linarith
  refine ⟨?_, key⟩
  by_cases hc : 0 < i ∧ i < N ∧ i % 2 = q
  · exact (key hc).le
  · unfold half; rw [if_neg hc]; exact hu i

/-- Sweeps with a positive right-hand side from values at most 0: negative inside. -/
theorem redBlack_neg {N : Int} {h : α} (hh : h ≠ 0) {f : Int → α} (hf : ∀ i, 0 < i → i < N → 0 < f i) {u : Int → α} (hu : ∀ i, u i ≤ 0) (i : Int) :
    redBlack N h f u i ≤ 0 ∧ (0 < i → i < N → redBlack N h f u i < 0) := by
  have h1 := half_neg hh hf (q := 0) hu
  have h2 := half_neg hh hf (q := 1) fun i => (h1 i).1
  refine ⟨(h2 i).1, fun a b => ?_⟩
  rcases Int.emod_two_eq_zero_or_one i with e | e
  · unfold redBlack half
    rw [if_neg (by omega)]
    exact (h1 i).2 ⟨a, b, e⟩
  · exact (h2 i).2 ⟨a, b, e⟩

theorem redBlack_iter_neg {N : Int} {h : α} (hh : h ≠ 0) {f : Int → α} (hf : ∀ i, 0 < i → i < N → 0 < f i) {u : Int → α} (hu : ∀ i, u i ≤ 0) (n : Nat) (i : Int) :
    (redBlack N h f)^[n] u i ≤ 0 := by
  induction n generalizing i with
  | zero => exact hu i
  | succ n ih => rw [Function.iterate_succ_apply']; exact (redBlack_neg hh hf ih i).1

omit [LinearOrder α] [IsStrictOrderedRing α] in
theorem redBlack_odd {N : Int} {h : α} {f u : Int → α} (n : Nat) : (redBlack N h fun i => -f i)^[n] (fun i => -u i) = fun i => -(redBlack N h f)^[n] u i := by
  have one : ∀ q u, half N h (fun i => -f i) q (fun i => -u i) = fun i => -half N h f q u i := by
    intro q u
    funext i
    unfold half
    split_ifs
    · ring
    · rfl
  induction n with
  | zero => rfl
  | succ n ih =>
    rw [Function.iterate_succ_apply', ih, Function.iterate_succ_apply']
    unfold redBlack
    rw [one, one]

/-- **C120.** One call of `update` in one dimension turns a right-hand side that is positive at all inner nodes into a field that
is negative at all inner nodes, and a negative one into a positive one; the ends become 0. -/
theorem call_flips {g : Shape} (hw : g.Wf) (h0 : g.ghosts = 0) (hd : g.dim = 1) (hx0 : g.x0 0 = 0) {k : Nat} (hx1 : g.x1 0 = ((2 ^ (k + 3) : Nat) : Int) + 1)
    {dx : Nat → α} (hdx : dx 0 ≠ 0) {f : Int → α} {σ : α} (hσ : σ = 1 ∨ σ = -1) (hf : ∀ y, Inner g 1 y → 0 < σ * val g f y)
    (junk : Nat → Int → α) {fuel : Nat} (hfuel : k + 2 < fuel) :
    ∃ u', update g dx junk fuel f = some (.ok u') ∧ (∀ x, Inner g 1 x → 0 < -σ * val g u' x) ∧ ∀ x, g.IsNode x → Boundary g x → val g u' x = 0 := by
  obtain ⟨u', h1, h2⟩ := line_update hw h0 hd hx0 hx1 hdx f junk hfuel
  have hN : ((2 ^ (k + 3) : Nat) : Int) = 2 ^ (k + 3) := by norm_cast
  have hf' : ∀ i : Int, 0 < i → i < 2 ^ (k + 3) → 0 < σ * val g f fun _ => i := fun i a b => hf _ ((line_inner hd).2 ⟨a, by rw [hx1]; omega, by simp⟩)
  refine ⟨u', h1, fun x hx => ?_, fun x hx hb => ?_⟩
  · have hx' := hx 0 (by omega)
    have hnode : g.IsNode x := by
      intro j hj
      obtain rfl : j = 0 := by omega
      rw [hx0]; omega
    rw [h2 x hnode]
    have a : 0 < x 0 := hx'.1
    have b : x 0 < 2 ^ (k + 3) := by have := hx'.2.1; rw [hx1] at this; omega
    rcases hσ with rfl | rfl
    · rw [Function.iterate_succ_apply']
      have := (redBlack_neg hdx (N := 2 ^ (k + 3)) (f := fun i => val g f fun _ => i) (fun i a b => by simpa using hf' i a b)
        (redBlack_iter_neg hdx (fun i a b => by simpa using hf' i a b) (fun _ => le_rfl) 3) (x 0)).2 a b
      linarith
    · have e := redBlack_odd (N := 2 ^ (k + 3)) (h := dx 0) (f := fun i => -val g f fun _ => i) (u := fun _ => (0 : α)) 4
      simp only [neg_neg, neg_zero] at e
      rw [e, Function.iterate_succ_apply']
      have fn : ∀ i : Int, 0 < i → i < 2 ^ (k + 3) → 0 < -val g f fun _ => i := fun i a b => by simpa using hf' i a b
      have := (redBlack_neg hdx (N := 2 ^ (k + 3)) (f := fun i => -val g f fun _ => i) (fn)
        (redBlack_iter_neg hdx (fn) (fun _ => le_rfl) 3) (x 0)).2 a b
      linarith
  · obtain ⟨j, hj, hb⟩ := hb
    obtain rfl : j = 0 := by omega
    rw [h2 x hx]
    have hout : ¬ (0 < x 0 ∧ x 0 < 2 ^ (k + 3)) := by
      rintro ⟨a, b⟩
      rcases hb with hb | hb
      · omega
      · rw [hb, hx1] at b; omega
    have keep : ∀ n : Nat, (redBlack (2 ^ (k + 3)) (dx 0) fun i => val g f fun _ => i)^[n] (fun _ => (0 : α)) (x 0) = 0 := by
      intro n
      induction n with
      | zero => rfl
      | succ n ih =>
        rw [Function.iterate_succ_apply']
        unfold redBlack half
        rw [if_neg (by tauto), if_neg (by tauto)]
        exact ih
    exact keep 4

/-- **C120.** After `c` calls, whatever the increment, from a right-hand side positive inside: the sign of every inner node is
`(-1)^c`, and the absolute values are at most `(4 dx²)^c` times the largest of the start. -/
theorem calls_sign {g : Shape} (hw : g.Wf) (h0 : g.ghosts = 0) (hd : g.dim = 1) (hx0 : g.x0 0 = 0) {k : Nat} (hx1 : g.x1 0 = ((2 ^ (k + 3) : Nat) : Int) + 1)
    {dx : Nat → α} (hdx : dx 0 ≠ 0) {f : Int → α} {F : α} (hf : ∀ y, Inner g 1 y → 0 < val g f y ∧ val g f y ≤ F)
    (junk : Nat → Nat → Int → α) {fuel : Nat} (hfuel : k + 2 < fuel) (inc : Int) (c : Nat) :
    ∃ u, (fun r => call g dx junk fuel r inc)^[c] (0, some (.ok f)) = (c, some (.ok u)) ∧
      (∀ x, Inner g 1 x → 0 < (-1) ^ c * val g u x ∧ |val g u x| ≤ (4 * dx 0 ^ 2) ^ c * F) ∧
      (0 < c → ∀ x, g.IsNode x → Boundary g x → val g u x = 0) := by
  induction c with
  | zero =>
    refine ⟨f, rfl, fun x hx => ?_, fun h => absurd h (lt_irrefl _)⟩
    have := hf x hx
    rw [pow_zero, pow_zero, one_mul, one_mul, abs_of_pos this.1]
    exact this
  | succ c ih =>
    obtain ⟨u, e, hs, -⟩ := ih
    obtain ⟨u', e', hs', hb'⟩ := call_flips hw h0 hd hx0 hx1 hdx (neg_one_pow_eq_or α c) (fun y hy => (hs y hy).1) (junk c) hfuel
    obtain ⟨u'', e'', hm⟩ := line_small hw h0 hd hx0 hx1 hdx (fun y hy => (hs y hy).2) (junk c) hfuel
    rw [e'] at e''
    cases e''
    refine ⟨u', ?_, fun x hx => ⟨?_, ?_⟩, fun _ => hb'⟩
    · rw [Function.iterate_succ_apply', e]
      unfold call
      exact congrArg (Prod.mk (c + 1)) e'
    · have := hs' x hx
      rwa [pow_succ, mul_neg_one]
    · refine (hm x fun j hj => ?_).trans (le_of_eq ?_)
      · obtain rfl : j = 0 := by omega
        have := hx 0 hj
        rw [hx0]; omega
      · rw [pow_succ]; ring

omit [IsStrictOrderedRing α] in
theorem line_max {g : Shape} (hw : g.Wf) (h0 : g.ghosts = 0) (hd : g.dim = 1) (hx0 : g.x0 0 = 0) (f : Int → α) : ∃ F, ∀ y, Inner g 1 y → val g f y ≤ F := by
  have ha : Aligned g 1 := ⟨hw, h0, fun j hj => (show j = 0 by omega) ▸ hx0, one_pos, fun _ _ => by simp⟩
  rcases (Finset.Icc 0 (g.x1 0 - 1)).eq_empty_or_nonempty with he | he
  · refine ⟨0, fun y hy => ?_⟩
    have hy' := hy 0 (by omega)
    have : y 0 ∈ Finset.Icc 0 (g.x1 0 - 1) := Finset.mem_Icc.2 ⟨hy'.1.le, hy'.2.1.le⟩
    rw [he] at this
    simp at this
  · obtain ⟨m, -, hm⟩ := Finset.exists_max_image (Finset.Icc 0 (g.x1 0 - 1)) (fun i => val g f fun _ => i) he
    refine ⟨val g f fun _ => m, fun y hy => ?_⟩
    have hy' := hy 0 (by omega)
    have := hm (y 0) (Finset.mem_Icc.2 ⟨hy'.1.le, hy'.2.1.le⟩)
    unfold val at this ⊢
    rwa [line_raw ha hd, line_raw ha hd] at *

/-- **C120.** The program on a command line that asks for a simulation of a one-dimensional file with a right-hand side positive
inside: file `c` (counted from 1) has the sign `(-1)^c` at every inner node and 0 at the ends. -/
theorem files_alternate {g : Shape} (hw : g.Wf) (h0 : g.ghosts = 0) (hd : g.dim = 1) (hx0 : g.x0 0 = 0) {k : Nat} (hx1 : g.x1 0 = ((2 ^ (k + 3) : Nat) : Int) + 1)
    {dx : Nat → α} (hdx : dx 0 ≠ 0) {f : Int → α} (hf : ∀ y, Inner g 1 y → 0 < val g f y)
    (junk : Nat → Nat → Int → α) {fuel : Nat} (hfuel : k + 2 < fuel)
    {load : Int → List Byte → Outcome (Calls α)} {file : List Byte → Option (List Byte)} {argv : List (List Byte)}
    {p : Params} {content rest : List Byte} {start : Int} {loopFuel : Nat}
    (hh : argv.getD 1 [] ≠ ascii "--help") (he : argv.getD 1 [] ≠ ascii "--example") (hp : params argv = .ok p)
    (hfile : file (argv.getD 1 []) = some content) (hgrid : (getline content).1.take 4 = ascii "grid")
    (hdim : extractInt (getline content).2 = some (1, rest)) (hload : load 1 content = .ok (0, some (.ok f)))
    (hstart : iterationsStart p.outfile = .ok start) (hinc : 0 < p.increment) (hs0 : 0 ≤ start) (hlt : start < p.steps)
    (hmax : p.steps + p.increment ≤ 2 ^ 31) (hfit : NamesFit p) (hloop : count p start ≤ loopFuel) :
    ∃ files, main load (call g dx junk fuel) file loopFuel argv = .ok (.ran files) ∧ files.length = count p start ∧
      ∀ c, c < count p start → ∃ u, files[c]? = some (Driver.checkpoint (Driver.base p.outfile) (Driver.suffix p.outfile) p.steps (start + (c + 1 : Nat) * p.increment), (c + 1, some (.ok u))) ∧
        (∀ x, Inner g 1 x → 0 < (-1) ^ (c + 1) * val g u x) ∧ ∀ x, g.IsNode x → Boundary g x → val g u x = 0 := by
  refine ⟨_, Driver.main_spec (call g dx junk fuel) hh he hp hfile hgrid hdim (Or.inl rfl) hload hstart hinc hs0 hlt hmax hfit hloop, by simp, fun c hc => ?_⟩
  obtain ⟨F, hF⟩ := line_max hw h0 hd hx0 f
  obtain ⟨u, e, hs, hb⟩ := calls_sign hw h0 hd hx0 hx1 hdx (fun y hy => ⟨hf y hy, hF y hy⟩) junk hfuel p.increment (c + 1)
  refine ⟨u, ?_, fun x hx => (hs x hx).1, hb (Nat.succ_pos c)⟩
  rw [List.getElem?_map, List.getElem?_range hc, Option.map_some, e]

/-- **C120.** The solution of the equation with 0 at the ends is negative inside, so of the files written in one run every second one
has the wrong sign at every inner node. -/
theorem solution_negative {g : Shape} (ha : Aligned g 1) (hd : g.dim = 1) {dx : Nat → α} (hdx : dx 0 ≠ 0) {f sol : Int → α} (hsol : Solves g dx 1 f sol)
    (hbd : ∀ x, g.IsNode x → Boundary g x → val g sol x = 0) (hf : ∀ y, Inner g 1 y → 0 < val g f y) {x : Nat → Int} (hx : Inner g 1 x) : val g sol x < 0 := by
  have hx' := hx 0 (by omega)
  obtain ⟨m, hm, hmin⟩ := Finset.exists_min_image (Finset.Ioo 0 (g.x1 0 - 1)) (fun i => val g f fun _ => i) ⟨x 0, Finset.mem_Ioo.2 ⟨hx'.1, hx'.2.1⟩⟩
  have hm' := Finset.mem_Ioo.1 hm
  have hpos := hf _ ((line_inner hd).2 ⟨hm'.1, hm'.2, by simp⟩)
  have hle : ∀ y, Inner g 1 y → (val g f fun _ => m) ≤ val g f y := by
    intro y hy
    have hy' := hy 0 (by omega)
    have := hmin (y 0) (Finset.mem_Ioo.2 ⟨hy'.1, hy'.2.1⟩)
    unfold val at this ⊢
    rwa [line_raw ha hd, line_raw ha hd] at *
  have hnode : g.IsNode x := by
    intro j hj
    obtain rfl : j = 0 := by omega
    rw [ha.x0 0 hj]; omega
  have := solution_large ha hd hdx hsol hbd hle hnode
  have h1 : (0 : α) < x 0 := by exact_mod_cast hx'.1
  have h2 : (0 : α) < ((g.x1 0 - 1 : Int) : α) - x 0 := by
    have : (0 : α) < ((g.x1 0 - 1 - x 0 : Int) : α) := by exact_mod_cast (show 0 < g.x1 0 - 1 - x 0 by omega)
    push_cast at this ⊢
    exact this
  have h3 : 0 < dx 0 ^ 2 := by positivity
  have := mul_pos (mul_pos hpos h3) (mul_pos h1 h2)
  linarith

/-- **C120.** Two runs from the same file with the same number of steps, one with a single increment and one with two, end with
files of the same name and fields of opposite sign at every inner node; only the first has the sign of the solution. -/
theorem increments_matter {g : Shape} (hw : g.Wf) (h0 : g.ghosts = 0) (hd : g.dim = 1) (hx0 : g.x0 0 = 0) {k : Nat} (hx1 : g.x1 0 = ((2 ^ (k + 3) : Nat) : Int) + 1)
    {dx : Nat → α} (hdx : dx 0 ≠ 0) {f sol : Int → α} (hf : ∀ y, Inner g 1 y → 0 < val g f y) (hsol : Solves g dx 1 f sol)
    (hbd : ∀ x, g.IsNode x → Boundary g x → val g sol x = 0) (junk : Nat → Nat → Int → α) {fuel : Nat} (hfuel : k + 2 < fuel)
    {out : List Byte} {m : Int} (hm : 0 < m) (hm31 : 4 * m ≤ 2 ^ 31) (hfit : NamesFit ⟨out, 2 * m, 2 * m⟩) (hfit' : NamesFit ⟨out, 2 * m, m⟩) :
    ∃ (a b : List Byte) (u v v' : Int → α),
      Driver.timeLoop (call g dx junk fuel) ⟨out, 2 * m, 2 * m⟩ 1 0 (0, some (.ok f)) = .ok (some [(a, (1, some (.ok u)))]) ∧
      Driver.timeLoop (call g dx junk fuel) ⟨out, 2 * m, m⟩ 2 0 (0, some (.ok f)) = .ok (some [(b, (1, some (.ok v))), (a, (2, some (.ok v')))]) ∧
      ∀ x, Inner g 1 x → val g u x < 0 ∧ val g sol x < 0 ∧ 0 < val g v' x := by
  have ha : Aligned g 1 := ⟨hw, h0, fun j hj => (show j = 0 by omega) ▸ hx0, one_pos, fun _ _ => by simp⟩
  have c1 : count ⟨out, 2 * m, 2 * m⟩ 0 = 1 := by
    have h := Driver.count_spec (p := ⟨out, 2 * m, 2 * m⟩) (start := 0) (by show 0 < 2 * m; omega) (by show 0 < 2 * m; omega)
    generalize count ⟨out, 2 * m, 2 * m⟩ 0 = n at h
    have h2 : (0 : Int) + n * (2 * m) < 2 * m + 2 * m := h.2.2
    by_contra hn
    have : (2 : Int) * (2 * m) ≤ n * (2 * m) := mul_le_mul_of_nonneg_right (by omega) (by omega)
    omega
  have c2 : count ⟨out, 2 * m, m⟩ 0 = 2 := by
    have h := Driver.count_spec (p := ⟨out, 2 * m, m⟩) (start := 0) hm (by show 0 < 2 * m; omega)
    generalize count ⟨out, 2 * m, m⟩ 0 = n at h
    have h1 : 2 * m ≤ (0 : Int) + n * m := h.2.1
    have h2 : (0 : Int) + n * m < 2 * m + m := h.2.2
    by_contra hn
    rcases Nat.lt_or_gt_of_ne hn with h' | h'
    · have : (n : Int) * m ≤ 1 * m := mul_le_mul_of_nonneg_right (by omega) (by omega)
      omega
    · have : (3 : Int) * m ≤ n * m := mul_le_mul_of_nonneg_right (by omega) (by omega)
      omega
  obtain ⟨F, hF⟩ := line_max hw h0 hd hx0 f
  have S := fun inc c => calls_sign hw h0 hd hx0 hx1 hdx (fun y hy => ⟨hf y hy, hF y hy⟩) junk hfuel inc c
  obtain ⟨u, eu, su, -⟩ := S (2 * m) 1
  obtain ⟨v, ev, sv, -⟩ := S m 1
  obtain ⟨v', ev', sv', -⟩ := S m 2
  have r1 := Driver.timeLoop_spec (call g dx junk fuel) (p := ⟨out, 2 * m, 2 * m⟩) (start := 0) (0, some (.ok f)) (by show 0 < 2 * m; omega) le_rfl (by show 0 < 2 * m; omega)
    (by show 2 * m + 2 * m ≤ 2 ^ 31; omega) hfit (fuel := 1) c1.le
  have r2 := Driver.timeLoop_spec (call g dx junk fuel) (p := ⟨out, 2 * m, m⟩) (start := 0) (0, some (.ok f)) hm le_rfl (by show 0 < 2 * m; omega)
    (by show 2 * m + m ≤ 2 ^ 31; omega) hfit' (fuel := 2) c2.le
  rw [c1] at r1
  rw [c2] at r2
  refine ⟨Driver.checkpoint (Driver.base out) (Driver.suffix out) (2 * m) (2 * m), Driver.checkpoint (Driver.base out) (Driver.suffix out) (2 * m) m, u, v, v',
    r1.trans ?_, r2.trans ?_, fun x hx => ⟨?_, solution_negative ha hd hdx hsol hbd hf hx, ?_⟩⟩
  · show Outcome.ok (some [(Driver.checkpoint _ _ _ (0 + ((0 + 1 : Nat) : Int) * (2 * m)), (fun r => call g dx junk fuel r (2 * m))^[1] (0, some (.ok f)))]) = _
    rw [eu, show (0 : Int) + ((0 + 1 : Nat) : Int) * (2 * m) = 2 * m by push_cast; ring]
  · show Outcome.ok (some [(Driver.checkpoint _ _ _ (0 + ((0 + 1 : Nat) : Int) * m), (fun r => call g dx junk fuel r m)^[1] (0, some (.ok f))),
      (Driver.checkpoint _ _ _ (0 + ((1 + 1 : Nat) : Int) * m), (fun r => call g dx junk fuel r m)^[2] (0, some (.ok f)))]) = _
    rw [ev, ev', show (0 : Int) + ((0 + 1 : Nat) : Int) * m = m by push_cast; ring, show (0 : Int) + ((1 + 1 : Nat) : Int) * m = 2 * m by push_cast; ring]
  · have := (su x hx).1
    rw [pow_one] at this; linarith
  · have := (sv' x hx).1
    norm_num at this; linarith

end

/-- The grid that `generate` writes in one dimension, with 2049 nodes, and any positive right-hand side. -/
example (junk : Nat → Nat → Int → ℚ) : ∃ u, (fun r => call lineShape (fun _ => (1 : ℚ)) junk 12 r 10)^[2] (0, some (.ok fun p => 1 + (p : ℚ) ^ 2)) = (2, some (.ok u)) ∧
    ∀ x, Inner lineShape 1 x → 0 < val lineShape u x := by
  obtain ⟨u, e, h, -⟩ := calls_sign (k := 8) lineShape_wf rfl rfl rfl (by decide) (dx := fun _ => (1 : ℚ)) one_ne_zero (f := fun p => 1 + (p : ℚ) ^ 2) (F := 1 + 2048 ^ 2)
    (fun y hy => by
      have ha : Aligned lineShape 1 := ⟨lineShape_wf, rfl, fun _ _ => rfl, one_pos, fun _ _ => by simp⟩
      have hy' := hy 0 (by decide)
      unfold val
      rw [line_raw ha rfl]
      have h1 : (0 : ℚ) ≤ y 0 := by exact_mod_cast hy'.1.le
      have h2 : (y 0 : ℚ) ≤ 2048 := by exact_mod_cast hy'.2.1.le
      constructor
      · positivity
      · nlinarith) junk (show 8 + 2 < 12 by norm_num) 10 2
  exact ⟨u, e, fun x hx => by have := (h x hx).1; norm_num at this; exact this⟩

/-- The names of `increments_matter` fit for `poisson example.dat 20` with increments of 20 and of 10. -/
example : NamesFit ⟨ascii "example.dat", 2 * 10, 2 * 10⟩ ∧ NamesFit ⟨ascii "example.dat", 2 * 10, 10⟩ := by
  unfold NamesFit; decide +kernel

/-- The whole of `increments_matter` on 2049 nodes with right-hand side 1: there is a solution. -/
example (junk : Nat → Nat → Int → ℚ) : ∃ (a b : List Byte) (u v v' sol : Int → ℚ), Solves lineShape (fun _ => 1) 1 (fun _ => 1) sol ∧
    Driver.timeLoop (call lineShape (fun _ => 1) junk 12) ⟨ascii "example.dat", 20, 20⟩ 1 0 (0, some (.ok fun _ => 1)) = .ok (some [(a, (1, some (.ok u)))]) ∧
    Driver.timeLoop (call lineShape (fun _ => 1) junk 12) ⟨ascii "example.dat", 20, 10⟩ 2 0 (0, some (.ok fun _ => 1)) =
      .ok (some [(b, (1, some (.ok v))), (a, (2, some (.ok v')))]) ∧
    ∀ x, Inner lineShape 1 x → val lineShape u x < 0 ∧ val lineShape sol x < 0 ∧ 0 < val lineShape v' x := by
  have ha : Aligned lineShape 1 := ⟨lineShape_wf, rfl, fun _ _ => rfl, one_pos, fun _ _ => by simp⟩
  obtain ⟨sol, h1, h2, -⟩ := solvable ha (dx := fun _ => (1 : ℚ)) (fun _ _ => one_ne_zero) (fun _ => 1) fun _ => 0
  obtain ⟨a, b, u, v, v', e1, e2, h⟩ := increments_matter (k := 8) lineShape_wf rfl rfl rfl (by decide) (dx := fun _ => (1 : ℚ)) one_ne_zero (f := fun _ => 1) (sol := sol)
    (fun _ _ => one_pos) h1 (fun x hx hb => by
      rw [h2 x hx]
      · rfl
      · rintro hi
        obtain ⟨j, hj, hb⟩ := hb
        have := hi j hj
        omega) junk (show 8 + 2 < 12 by norm_num) (out := ascii "example.dat") (m := 10) (by norm_num) (by norm_num) (by unfold NamesFit; decide +kernel) (by unfold NamesFit; decide +kernel)
  exact ⟨a, b, u, v, v', sol, h1, e1, e2, h⟩

end MMSP.Multigrid
