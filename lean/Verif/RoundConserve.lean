import Verif.Conserve
import Verif.RoundNearest
import Mathlib.Tactic.Linarith
import Mathlib.Tactic.NormNum
import Mathlib.Tactic.Positivity
/-!
# Conservation in floating point

The explicit Cahn-Hilliard update and model B (`Conserve.step`, `Conserve.update`: cahn-hilliard.cpp 47-81, model_B.cpp 74-112) with numbers of `p` significant binary digits: the
model is the one of `Conserve`, run on a type whose operations round to nearest, ties to even (`p = 53` for `double`). Simplifications: neither overflow nor underflow, no infinities (a
quotient by zero is meaningless here, as in C95), no fused multiply-add, no extended precision; `pow(phi,3)` is `phi*phi*phi`, rounded twice.
-/

namespace MMSP.RoundConserve
open Rounding Finset MMSP.Stencil MMSP.Conserve

/-! ## Arithmetic -/

/-- The numbers with `p` significant binary digits: `double` for `p = 53`, `float` for `p = 24`. -/
structure Num (p : Nat) where
  val : ℝ
  rep : Rep p val

namespace Num
variable {p : Nat}

/-- The number nearest to a real number. -/
noncomputable def of (x : ℝ) : Num p := ⟨fl p x, rep_fl x⟩

noncomputable instance : Zero (Num p) := ⟨⟨0, rep_zero p⟩⟩
noncomputable instance : One (Num p) := ⟨⟨1, rep_one p⟩⟩
noncomputable instance : Add (Num p) := ⟨fun a b => of (a.val + b.val)⟩
noncomputable instance : Sub (Num p) := ⟨fun a b => of (a.val - b.val)⟩
noncomputable instance : Mul (Num p) := ⟨fun a b => of (a.val * b.val)⟩
noncomputable instance : Div (Num p) := ⟨fun a b => of (a.val / b.val)⟩
noncomputable instance : Neg (Num p) := ⟨fun a => of (-a.val)⟩

theorem zero_val : (0 : Num p).val = 0 := rfl
theorem one_val : (1 : Num p).val = 1 := rfl
theorem add_val (a b : Num p) : (a + b).val = fl p (a.val + b.val) := rfl
theorem sub_val (a b : Num p) : (a - b).val = fl p (a.val - b.val) := rfl
theorem mul_val (a b : Num p) : (a * b).val = fl p (a.val * b.val) := rfl
theorem div_val (a b : Num p) : (a / b).val = fl p (a.val / b.val) := rfl
theorem neg_val (a : Num p) : (-a).val = fl p (-a.val) := rfl

theorem ext {a b : Num p} (h : a.val = b.val) : a = b := by cases a; cases b; simp_all

/-- Numbers change sign without error. -/
theorem neg_exact (hp : 1 ≤ p) (a : Num p) : (-a).val = -a.val := by rw [neg_val, fl_neg, fl_rep hp a.rep]

/-- Doubling is exact. -/
theorem two_mul_exact (hp : 1 ≤ p) (a : Num p) : ((1 + 1) * a).val = 2 * a.val := by
  have h2 : fl p (1 + 1) = 2 := by
    have : Rep p ((1 : ℝ) * 2 ^ (1 : ℤ)) := rep_scale (rep_one p) 1
    rw [show (1 : ℝ) + 1 = 1 * 2 ^ (1 : ℤ) by norm_num, fl_rep hp this]; norm_num
  rw [mul_val, add_val, one_val, h2]
  have : Rep p (a.val * 2 ^ (1 : ℤ)) := rep_scale a.rep 1
  rw [show (2 : ℝ) * a.val = a.val * 2 ^ (1 : ℤ) by norm_num; ring, fl_rep hp this]

end Num

/-- The relative error of one operation, `2^-p`. -/
noncomputable def eps (p : Nat) : ℝ := 2 ^ (-(p : ℤ))

/-! ## Specification -/

/-- Total mass, in exact arithmetic, of the numbers stored in the nodes. -/
noncomputable def mass {p : Nat} (g : Shape) (data : Int → Num p) : ℝ := ∑ n ∈ range g.nodes.toNat, (data n).val

/-- Sum of the magnitudes. -/
noncomputable def size {p : Nat} (g : Shape) (data : Int → Num p) : ℝ := ∑ n ∈ range g.nodes.toNat, |(data n).val|

/-- Sum of the weights `1/(dx*dx)` of the axes. -/
noncomputable def weight {p : Nat} (g : Shape) (dx : Nat → Num p) : ℝ := ∑ i ∈ range g.dim, |(lapWeight (dx i)).val|

/-! ## Error of a chain of operations -/

theorem eps_pos (p : Nat) : 0 < eps p := two_zpow_pos _

/-- `x` has come out of at most `k` roundings in a row where exact arithmetic gives `y`, and `m` bounds the terms of `y`. -/
def Near (p k : Nat) (x y m : ℝ) : Prop := |x - y| ≤ ((1 + eps p) ^ k - 1) * m ∧ |y| ≤ m

namespace Near
variable {p k l : Nat} {x y m x' y' m' : ℝ}

theorem nonneg (h : Near p k x y m) : 0 ≤ m := (abs_nonneg y).trans h.2

theorem grow_pos (p k : Nat) : 0 ≤ (1 + eps p) ^ k - 1 := by
  have := one_le_pow₀ (n := k) (show (1 : ℝ) ≤ 1 + eps p by have := eps_pos p; linarith)
  linarith

theorem exact (p k : Nat) (y : ℝ) : Near p k y y |y| := by
  refine ⟨?_, le_rfl⟩
  rw [sub_self, abs_zero]; exact mul_nonneg (grow_pos p k) (abs_nonneg y)

theorem weaken (h : Near p k x y m) (hkl : k ≤ l) : Near p l x y m := by
  refine ⟨h.1.trans ?_, h.2⟩
  have := pow_le_pow_right₀ (show (1 : ℝ) ≤ 1 + eps p by have := eps_pos p; linarith) hkl
  exact mul_le_mul_of_nonneg_right (by linarith) h.nonneg

theorem wider (h : Near p k x y m) (hm : m ≤ m') : Near p k x y m' :=
  ⟨h.1.trans (mul_le_mul_of_nonneg_left hm (grow_pos p k)), h.2.trans hm⟩

theorem bound (h : Near p k x y m) : |x| ≤ (1 + eps p) ^ k * m := by
  have h1 := h.1; have h2 := h.2
  have : |x| ≤ |x - y| + |y| := by have := abs_add_le (x - y) y; simpa using this
  nlinarith

/-- One more rounding. -/
theorem round (h : Near p k x y m) : Near p (k + 1) (fl p x) y m := by
  refine ⟨?_, h.2⟩
  have h1 := h.1
  have h2 := h.bound
  have h3 := fl_err (p := p) x
  have h4 : |fl p x - y| ≤ |fl p x - x| + |x - y| := by have := abs_add_le (fl p x - x) (x - y); simpa using this
  have h5 : eps p * |x| ≤ eps p * ((1 + eps p) ^ k * m) := mul_le_mul_of_nonneg_left h2 (eps_pos p).le
  have h6 : |fl p x - x| ≤ eps p * |x| := h3
  rw [pow_succ]
  nlinarith

theorem add (h : Near p k x y m) (h' : Near p k x' y' m') : Near p (k + 1) (fl p (x + x')) (y + y') (m + m') := by
  apply Near.round
  refine ⟨?_, (abs_add_le _ _).trans (add_le_add h.2 h'.2)⟩
  have := abs_add_le (x - y) (x' - y')
  rw [show x + x' - (y + y') = x - y + (x' - y') by ring, mul_add]
  exact this.trans (add_le_add h.1 h'.1)

theorem neg (h : Near p k x y m) : Near p k (-x) (-y) m := by
  refine ⟨?_, by rw [abs_neg]; exact h.2⟩
  rw [show -x - -y = -(x - y) by ring, abs_neg]; exact h.1

theorem sub (h : Near p k x y m) (h' : Near p k x' y' m') : Near p (k + 1) (fl p (x - x')) (y - y') (m + m') := by
  rw [sub_eq_add_neg, sub_eq_add_neg]; exact h.add h'.neg

theorem mul (c : ℝ) (h : Near p k x y m) : Near p (k + 1) (fl p (c * x)) (c * y) (|c| * m) := by
  apply Near.round
  refine ⟨?_, by rw [abs_mul]; exact mul_le_mul_of_nonneg_left h.2 (abs_nonneg c)⟩
  rw [← mul_sub, abs_mul, mul_left_comm]
  exact mul_le_mul_of_nonneg_left h.1 (abs_nonneg c)

/-- Adding to a number that is known exactly. -/
theorem add_exact (a : ℝ) (h : Near p k x y m) : |fl p (a + x) - (a + y)| ≤ eps p * |a| + ((1 + eps p) ^ (k + 1) - 1) * m := by
  have h1 := h.1
  have h2 := h.bound
  have h3 : |fl p (a + x) - (a + x)| ≤ eps p * |a + x| := fl_err (p := p) (a + x)
  have h4 : |fl p (a + x) - (a + y)| ≤ |fl p (a + x) - (a + x)| + |x - y| := by
    have := abs_add_le (fl p (a + x) - (a + x)) (x - y)
    rwa [show fl p (a + x) - (a + x) + (x - y) = fl p (a + x) - (a + y) by ring] at this
  have h5 : eps p * |a + x| ≤ eps p * (|a| + (1 + eps p) ^ k * m) :=
    mul_le_mul_of_nonneg_left ((abs_add_le a x).trans (by linarith)) (eps_pos p).le
  rw [pow_succ]
  nlinarith

end Near

/-! ## The Laplacian -/

/-- `laplacian(GRID,n)`, operation by operation. -/
noncomputable def lapAt {p : Nat} (g : Shape) (dx : Nat → Num p) (data : Int → Num p) (n : Int) : Num p :=
  (List.range g.dim).foldl (fun a i => a + lapWeight (dx i) * (data (nb g i n true) - (1 + 1) * data n + data (nb g i n false))) 0

section
variable {p : Nat} (hp : 1 ≤ p) {g : Shape} (hs : Serial g)
include hp

theorem fold_near (w F G : Nat → Num p) (y : Num p) (d : Nat) :
    Near p (d + 3) ((List.range d).foldl (fun a i => a + w i * (F i - (1 + 1) * y + G i)) 0).val
      (∑ i ∈ range d, (w i).val * ((F i).val - 2 * y.val + (G i).val))
      (∑ i ∈ range d, |(w i).val| * (|(F i).val| + 2 * |y.val| + |(G i).val|)) := by
  induction d with
  | zero => simpa [Num.zero_val] using Near.exact p 3 0
  | succ d ih =>
    rw [List.range_succ, List.foldl_append, Finset.sum_range_succ, Finset.sum_range_succ, List.foldl_cons, List.foldl_nil, Num.add_val]
    have e : Near p 3 (w d * (F d - (1 + 1) * y + G d)).val ((w d).val * ((F d).val - 2 * y.val + (G d).val))
        (|(w d).val| * (|(F d).val| + 2 * |y.val| + |(G d).val|)) := by
      rw [Num.mul_val, Num.add_val, Num.sub_val, Num.two_mul_exact hp]
      refine Near.mul _ (Near.add ?_ (Near.exact p 1 _))
      have := (Near.exact p 0 (F d).val).sub (Near.exact p 0 (2 * y.val))
      rwa [abs_mul, abs_two] at this
    exact Near.add ih (e.weaken (by omega))

/-- The computed Laplacian differs from the sum of its terms by at most `dim+3` roundings of them. -/
theorem lapAt_near (g : Shape) (dx : Nat → Num p) (data : Int → Num p) (n : Int) :
    Near p (g.dim + 3) (lapAt g dx data n).val
      (∑ i ∈ range g.dim, (lapWeight (dx i)).val * ((data (nb g i n true)).val - 2 * (data n).val + (data (nb g i n false)).val))
      (∑ i ∈ range g.dim, |(lapWeight (dx i)).val| * (|(data (nb g i n true)).val| + 2 * |(data n).val| + |(data (nb g i n false)).val|)) :=
  fold_near hp _ _ _ _ _

include hs

omit hp in
/-- What `laplacian(GRID,n)` computes, operation by operation. -/
theorem laplacian_fold (dx : Nat → Num p) (data : Int → Num p) {n : Int} (h0 : 0 ≤ n) (h1 : n < g.nodes) :
    laplacianNode .serial g dx data n = .ok (lapAt g dx data n) := by
  have hr := inReach hs h0 h1
  unfold laplacianNode laplacian
  rw [gridAt_ok hr.1, Outcome.ok_bind, lapLoop_eq (F := view .serial g data)]
  · rw [view_position hs data h0 h1]; rfl
  · intro i hi
    have := hr.2 i (List.mem_range.mp hi)
    exact ⟨gridAt_ok this.1 data, gridAt_ok this.2 data⟩

omit hp in
theorem exact_zero (w : Nat → ℝ) (data : Int → Num p) :
    ∑ n ∈ range g.nodes.toNat, ∑ i ∈ range g.dim, w i * ((data (nb g i n true)).val - 2 * (data n).val + (data (nb g i n false)).val) = 0 := by
  rw [Finset.sum_comm]
  refine Finset.sum_eq_zero fun i hi => ?_
  rw [← Finset.mul_sum]
  have h := axis_sum hs (fun k => (data k).val) (Finset.mem_range.mp hi)
  have e : ∑ n ∈ range g.nodes.toNat, ((data (nb g i n true)).val - 2 * (data n).val + (data (nb g i n false)).val) =
      (∑ n ∈ range g.nodes.toNat, ((data (nb g i n true)).val + (data (nb g i n false)).val)) - 2 * total g fun k => (data k).val := by
    rw [total, Finset.mul_sum, ← Finset.sum_sub_distrib]
    exact Finset.sum_congr rfl fun n _ => by ring
  rw [e, h, sub_self, mul_zero]

omit hp in
theorem exact_size (w : Nat → ℝ) (data : Int → Num p) :
    ∑ n ∈ range g.nodes.toNat, ∑ i ∈ range g.dim, w i * (|(data (nb g i n true)).val| + 2 * |(data n).val| + |(data (nb g i n false)).val|) =
      4 * (∑ i ∈ range g.dim, w i) * size g data := by
  rw [Finset.sum_comm, Finset.mul_sum, Finset.sum_mul]
  refine Finset.sum_congr rfl fun i hi => ?_
  rw [← Finset.mul_sum]
  have h := axis_sum hs (fun k => |(data k).val|) (Finset.mem_range.mp hi)
  have e : ∑ n ∈ range g.nodes.toNat, (|(data (nb g i n true)).val| + 2 * |(data n).val| + |(data (nb g i n false)).val|) =
      (∑ n ∈ range g.nodes.toNat, (|(data (nb g i n true)).val| + |(data (nb g i n false)).val|)) + 2 * total g fun k => |(data k).val| := by
    rw [total, Finset.mul_sum, ← Finset.sum_add_distrib]
    exact Finset.sum_congr rfl fun n _ => by ring
  rw [e, h, show total g (fun k => |(data k).val|) = size g data from rfl]
  ring

/-! ## The update loops -/

/-- How far one pass can move the mass: `old` is the field before it, `temp` the potential it computes. -/
noncomputable def stepDrift (g : Shape) (dx : Nat → Num p) (c : Num p) (old temp : Int → Num p) : ℝ :=
  eps p * size g old + ((1 + eps p) ^ (g.dim + 5) - 1) * (4 * |c.val| * weight g dx * size g temp)

omit hp in
/-- One pass, operation by operation. -/
theorem step_eq (dx : Nat → Num p) (mu : Int → Num p → Num p → Num p) (c : Num p) (s : Fields (Num p)) :
    ∃ temp, (∀ n, 0 ≤ n → n < g.nodes → temp n = mu n (s.old n) (lapAt g dx s.old n)) ∧
      step g dx mu c s = .ok ⟨fun n => if 0 ≤ n ∧ n < g.nodes then s.old n + c * lapAt g dx temp n else s.new n, s.old, temp⟩ := by
  have hd : ∀ (n : Int), 0 ≤ n → n < g.nodes → deref g s.old (g.atNode .serial n) = .ok (s.old n) := by
    intro n h0 h1; unfold deref; exact if_pos ⟨h0, by rw [cells_eq_nodes hs]; exact h1⟩
  have t1 := forNodes_eq hs (fun i => (deref g s.old (g.atNode .serial i)).bind fun phi =>
    (laplacianNode .serial g dx s.old i).bind fun l => .ok (mu i phi l)) (fun n => mu n (s.old n) (lapAt g dx s.old n)) s.temp
    (by intro n h0 h1; simp only [hd n h0 h1, laplacian_fold hs dx s.old h0 h1, Outcome.ok_bind])
  have hmu : ∀ n, 0 ≤ n → n < g.nodes → (fun p => if 0 ≤ p ∧ p < g.nodes then mu p (s.old p) (lapAt g dx s.old p) else s.temp p) n = mu n (s.old n) (lapAt g dx s.old n) := by
    intro n h0 h1; exact if_pos ⟨h0, h1⟩
  generalize (fun p => if 0 ≤ p ∧ p < g.nodes then mu p (s.old p) (lapAt g dx s.old p) else s.temp p) = temp at t1 hmu
  have t2 := forNodes_eq hs (fun i => (deref g s.old (g.atNode .serial i)).bind fun phi =>
    (laplacianNode .serial g dx temp i).bind fun l => .ok (phi + c * l)) (fun n => s.old n + c * lapAt g dx temp n) s.new
    (by intro n h0 h1; simp only [hd n h0 h1, laplacian_fold hs dx temp h0 h1, Outcome.ok_bind])
  exact ⟨temp, hmu, by unfold step; rw [t1, Outcome.ok_bind, t2, Outcome.ok_bind]⟩

/-- **C107.** One pass in floating point never leaves the arrays and moves the total mass by at most `stepDrift`, whatever the chemical potential and however it was rounded. -/
theorem step_drift (dx : Nat → Num p) (mu : Int → Num p → Num p → Num p) (c : Num p) (s : Fields (Num p)) :
    ∃ s', step g dx mu c s = .ok s' ∧ |mass g s'.old - mass g s.old| ≤ stepDrift g dx c s.old s'.temp ∧
      ∀ n, 0 ≤ n → n < g.nodes → s'.temp n = mu n (s.old n) (lapAt g dx s.old n) := by
  obtain ⟨temp, hmu, he⟩ := step_eq hs dx mu c s
  refine ⟨_, he, ?_, hmu⟩
  have e1 : mass g (fun p => if 0 ≤ p ∧ p < g.nodes then s.old p + c * lapAt g dx temp p else s.new p) =
      ∑ n ∈ range g.nodes.toNat, (s.old n + c * lapAt g dx temp n).val := by
    unfold mass
    refine Finset.sum_congr rfl fun n hn => ?_
    rw [Finset.mem_range] at hn
    exact congrArg Num.val (if_pos (by omega))
  have e2 : mass g s.old = ∑ n ∈ range g.nodes.toNat, ((s.old n).val + c.val *
      ∑ i ∈ range g.dim, (lapWeight (dx i)).val * ((temp (nb g i n true)).val - 2 * (temp n).val + (temp (nb g i n false)).val)) := by
    rw [Finset.sum_add_distrib, ← Finset.mul_sum, exact_zero hs (fun i => (lapWeight (dx i)).val) temp, mul_zero, add_zero]; rfl
  simp only
  rw [e1, e2, ← Finset.sum_sub_distrib]
  refine (Finset.abs_sum_le_sum_abs _ _).trans ?_
  have e3 : stepDrift g dx c s.old temp = ∑ n ∈ range g.nodes.toNat, (eps p * |(s.old n).val| + ((1 + eps p) ^ (g.dim + 5) - 1) * (|c.val| *
      ∑ i ∈ range g.dim, |(lapWeight (dx i)).val| * (|(temp (nb g i n true)).val| + 2 * |(temp n).val| + |(temp (nb g i n false)).val|))) := by
    rw [Finset.sum_add_distrib, ← Finset.mul_sum, ← Finset.mul_sum, ← Finset.mul_sum, exact_size hs (fun i => |(lapWeight (dx i)).val|) temp]
    unfold stepDrift weight size
    ring
  rw [e3]
  refine Finset.sum_le_sum fun n hn => ?_
  rw [Finset.mem_range] at hn
  have h := lapAt_near hp g dx temp n
  rw [Num.add_val, Num.mul_val]
  exact (h.mul c.val).add_exact _

/-- **C107.** Any number of passes: every one of them ends, and the mass has moved by at most the sum of the `stepDrift`s. -/
theorem update_drift (dx : Nat → Num p) (mu : Nat → Int → Num p → Num p → Num p) (c : Num p) (s : Fields (Num p)) :
    ∃ S : Nat → Fields (Num p), (∀ n, update g dx mu c n s = .ok (S n)) ∧ S 0 = s ∧
      (∀ n, |mass g (S n).old - mass g s.old| ≤ ∑ k ∈ range n, stepDrift g dx c (S k).old (S (k + 1)).temp) ∧
      ∀ k n, 0 ≤ n → n < g.nodes → (S (k + 1)).temp n = mu k n ((S k).old n) (lapAt g dx (S k).old n) := by
  have hex : ∀ n, ∃ s', update g dx mu c n s = .ok s' := by
    intro n
    induction n with
    | zero => exact ⟨s, rfl⟩
    | succ n ih =>
      obtain ⟨s1, e1⟩ := ih
      obtain ⟨s2, e2, -⟩ := step_drift hp hs dx (mu n) c s1
      exact ⟨s2, by rw [update, e1, Outcome.ok_bind, e2]⟩
  choose S hS using hex
  have h0 : S 0 = s := by have := hS 0; simp only [update, Outcome.ok.injEq] at this; exact this.symm
  have hstep : ∀ n, step g dx (mu n) c (S n) = .ok (S (n + 1)) := by
    intro n; have e := hS (n + 1); rwa [update, hS n, Outcome.ok_bind] at e
  refine ⟨S, hS, h0, fun n => ?_, fun k n h0 h1 => ?_⟩
  · induction n with
    | zero => simp [h0]
    | succ n ih =>
      obtain ⟨s2, e2, h, -⟩ := step_drift hp hs dx (mu n) c (S n)
      have e : s2 = S (n + 1) := by simpa using e2.symm.trans (hstep n)
      rw [e] at h
      rw [Finset.sum_range_succ]
      have := abs_add_le (mass g (S (n + 1)).old - mass g (S n).old) (mass g (S n).old - mass g s.old)
      rw [sub_add_sub_cancel] at this
      linarith
  · obtain ⟨s2, e2, -, h⟩ := step_drift hp hs dx (mu k) c (S k)
    have e : s2 = S (k + 1) := by simpa using e2.symm.trans (hstep k)
    rw [← e]; exact h n h0 h1

/-! ## Bounded fields -/

omit hp hs in
theorem size_le {data : Int → Num p} {B : ℝ} (h : ∀ n, 0 ≤ n → n < g.nodes → |(data n).val| ≤ B) : size g data ≤ g.nodes.toNat * B := by
  unfold size
  have := Finset.sum_le_card_nsmul (range g.nodes.toNat) (fun n => |(data (n : Int)).val|) B (fun n hn => by
    rw [Finset.mem_range] at hn; exact h n (by omega) (by omega))
  simpa using this

omit hs in
/-- The Laplacian of a bounded field. -/
theorem lapAt_bound (hs : Serial g) (dx : Nat → Num p) {data : Int → Num p} {B : ℝ} (h : ∀ n, 0 ≤ n → n < g.nodes → |(data n).val| ≤ B) {n : Int} (h0 : 0 ≤ n) (h1 : n < g.nodes) :
    |(lapAt g dx data n).val| ≤ (1 + eps p) ^ (g.dim + 3) * (4 * weight g dx * B) := by
  refine (lapAt_near hp g dx data n).bound.trans (mul_le_mul_of_nonneg_left ?_ (by have := eps_pos p; positivity))
  unfold weight
  rw [mul_comm 4, mul_assoc, Finset.sum_mul]
  refine Finset.sum_le_sum fun i hi => mul_le_mul_of_nonneg_left ?_ (abs_nonneg _)
  have hi := Finset.mem_range.mp hi
  have a := nb_spec hs hi h0 h1 true
  have b := nb_spec hs hi h0 h1 false
  have := h _ a.1 a.2.1
  have := h _ b.1 b.2.1
  have := h n h0 h1
  linarith

omit hs in
/-- The potential of the Cahn-Hilliard example on a bounded field. -/
theorem chPotential_bound (r u k phi l : Num p) {B L : ℝ} {d : Nat} (hphi : |phi.val| ≤ B) (hl : |l.val| ≤ (1 + eps p) ^ (d + 3) * L) :
    |(chPotential r u k phi l).val| ≤ (1 + eps p) ^ (d + 5) * (|r.val| * B + |u.val| * B ^ 3 + |k.val| * L) := by
  have hB : 0 ≤ B := (abs_nonneg _).trans hphi
  have he := eps_pos p
  have flb : ∀ x : ℝ, |fl p x| ≤ (1 + eps p) * |x| := by
    intro x
    have h3 : |fl p x - x| ≤ eps p * |x| := fl_err (p := p) x
    have := abs_add_le (fl p x - x) x
    rw [sub_add_cancel] at this
    linarith
  have one : ∀ j : Nat, (1 : ℝ) ≤ (1 + eps p) ^ j := fun j => one_le_pow₀ (by linarith)
  have h1 : |(-r * phi).val| ≤ (1 + eps p) * (|r.val| * B) := by
    rw [Num.mul_val, Num.neg_exact hp]
    refine (flb _).trans (mul_le_mul_of_nonneg_left ?_ (by linarith))
    rw [abs_mul, abs_neg]; exact mul_le_mul_of_nonneg_left hphi (abs_nonneg _)
  have h2 : |(phi * phi).val| ≤ (1 + eps p) * (B * B) := by
    rw [Num.mul_val]
    refine (flb _).trans (mul_le_mul_of_nonneg_left ?_ (by linarith))
    rw [abs_mul]; exact mul_le_mul hphi hphi (abs_nonneg _) hB
  have h3 : |(phi * phi * phi).val| ≤ (1 + eps p) ^ 2 * B ^ 3 := by
    rw [Num.mul_val]
    refine (flb _).trans ?_
    rw [abs_mul, pow_two, mul_assoc]
    refine mul_le_mul_of_nonneg_left ?_ (by linarith)
    rw [show (1 + eps p) * B ^ 3 = (1 + eps p) * (B * B) * B by ring]
    exact mul_le_mul h2 hphi (abs_nonneg _) (by positivity)
  have h4 : |(u * (phi * phi * phi)).val| ≤ (1 + eps p) ^ 3 * (|u.val| * B ^ 3) := by
    rw [Num.mul_val]
    refine (flb _).trans ?_
    rw [abs_mul, show (1 + eps p) ^ 3 * (|u.val| * B ^ 3) = (1 + eps p) * (|u.val| * ((1 + eps p) ^ 2 * B ^ 3)) by ring]
    exact mul_le_mul_of_nonneg_left (mul_le_mul_of_nonneg_left h3 (abs_nonneg _)) (by linarith)
  have h5 : |(-r * phi + u * (phi * phi * phi)).val| ≤ (1 + eps p) ^ (d + 4) * (|r.val| * B + |u.val| * B ^ 3) := by
    rw [Num.add_val]
    refine (flb _).trans ?_
    have a := abs_add_le (-r * phi).val (u * (phi * phi * phi)).val
    have b : (1 + eps p) * (|r.val| * B) ≤ (1 + eps p) ^ 3 * (|r.val| * B) :=
      mul_le_mul_of_nonneg_right (by simpa using pow_le_pow_right₀ (show (1 : ℝ) ≤ 1 + eps p by linarith) (show 1 ≤ 3 by norm_num)) (by positivity)
    have e : (1 + eps p) * |(-r * phi).val + (u * (phi * phi * phi)).val| ≤ (1 + eps p) ^ 4 * (|r.val| * B + |u.val| * B ^ 3) := by
      rw [show (1 + eps p) ^ 4 * (|r.val| * B + |u.val| * B ^ 3) = (1 + eps p) * ((1 + eps p) ^ 3 * (|r.val| * B) + (1 + eps p) ^ 3 * (|u.val| * B ^ 3)) by ring]
      exact mul_le_mul_of_nonneg_left (by linarith) (by linarith)
    exact e.trans (mul_le_mul_of_nonneg_right (pow_le_pow_right₀ (by linarith) (by omega)) (by positivity))
  have h6 : |(k * l).val| ≤ (1 + eps p) ^ (d + 4) * (|k.val| * L) := by
    rw [Num.mul_val]
    refine (flb _).trans ?_
    rw [abs_mul, show (1 + eps p) ^ (d + 4) * (|k.val| * L) = (1 + eps p) * (|k.val| * ((1 + eps p) ^ (d + 3) * L)) by ring]
    exact mul_le_mul_of_nonneg_left (mul_le_mul_of_nonneg_left hl (abs_nonneg _)) (by linarith)
  unfold chPotential
  rw [Num.sub_val]
  refine (flb _).trans ?_
  have a := abs_sub (-r * phi + u * (phi * phi * phi)).val (k * l).val
  rw [show (1 + eps p) ^ (d + 5) * (|r.val| * B + |u.val| * B ^ 3 + |k.val| * L) =
    (1 + eps p) * ((1 + eps p) ^ (d + 4) * (|r.val| * B + |u.val| * B ^ 3) + (1 + eps p) ^ (d + 4) * (|k.val| * L)) by ring]
  exact mul_le_mul_of_nonneg_left (by linarith) (by linarith)

/-- Drift per node and step of the Cahn-Hilliard example on a field bounded by `B`. -/
noncomputable def chDrift (g : Shape) (dx : Nat → Num p) (r u k c : Num p) (B : ℝ) : ℝ :=
  eps p * B + ((1 + eps p) ^ (g.dim + 5) - 1) * (4 * |c.val| * weight g dx * ((1 + eps p) ^ (g.dim + 5) * (|r.val| * B + |u.val| * B ^ 3 + |k.val| * (4 * weight g dx * B))))

/-- **C107.** The Cahn-Hilliard example in floating point: as long as the field stays within `±B`, the mean moves by at most `chDrift` per step. -/
theorem cahnHilliard_drift (dx : Nat → Num p) (r u k m dt : Num p) (s : Fields (Num p)) (B : ℝ) :
    ∃ S : Nat → Fields (Num p), (∀ n, update g dx (fun _ _ phi l => chPotential r u k phi l) (dt * m) n s = .ok (S n)) ∧ S 0 = s ∧
      ∀ n, (∀ j < n, ∀ i, 0 ≤ i → i < g.nodes → |((S j).old i).val| ≤ B) →
        |mass g (S n).old - mass g s.old| ≤ n * (g.nodes.toNat * chDrift g dx r u k (dt * m) B) := by
  obtain ⟨S, h1, h2, h3, h4⟩ := update_drift hp hs dx (fun _ _ phi l => chPotential r u k phi l) (dt * m) s
  refine ⟨S, h1, h2, fun n hB => (h3 n).trans ?_⟩
  have key : ∀ j ∈ range n, stepDrift g dx (dt * m) (S j).old (S (j + 1)).temp ≤ g.nodes.toNat * chDrift g dx r u k (dt * m) B := by
    intro j hj
    have hb := hB j (Finset.mem_range.mp hj)
    have a := size_le hb
    have b : size g (S (j + 1)).temp ≤ _ := size_le (fun i i0 i1 => by
      rw [h4 j i i0 i1]
      exact chPotential_bound hp r u k _ _ (hb i i0 i1) (lapAt_bound hp hs dx hb i0 i1))
    have hw : 0 ≤ weight g dx := Finset.sum_nonneg fun i _ => abs_nonneg _
    unfold stepDrift chDrift
    rw [mul_add]
    refine add_le_add ?_ ?_
    · rw [mul_left_comm]; exact mul_le_mul_of_nonneg_left a (eps_pos p).le
    · rw [mul_left_comm (g.nodes.toNat : ℝ)]
      refine mul_le_mul_of_nonneg_left ?_ (Near.grow_pos p _)
      rw [mul_left_comm (g.nodes.toNat : ℝ)]
      exact mul_le_mul_of_nonneg_left b (by positivity)
  have := Finset.sum_le_card_nsmul _ _ _ key
  simpa using this

end

/-! ## The example as shipped -/

section
variable {p : Nat} (hp : 1 ≤ p)
include hp

theorem mul_one_num (a : Num p) : a * 1 = a := Num.ext (by rw [Num.mul_val, Num.one_val, mul_one, fl_rep hp a.rep])

theorem lapWeight_one : lapWeight (1 : Num p) = 1 := by
  refine Num.ext ?_
  unfold lapWeight
  rw [mul_one_num hp, Num.div_val, Num.one_val, div_one, fl_one hp]

end

/-- cahn-hilliard.cpp 61: `double dt = 0.01;` -/
noncomputable def dtNum : Num 53 := Num.of (1 / 100)

theorem dtNum_bound : |dtNum.val| ≤ (1 + eps 53) / 100 := by
  have h : |fl 53 (1 / 100) - 1 / 100| ≤ eps 53 * |1 / 100| := fl_err _
  have := abs_add_le (fl 53 (1 / 100) - 1 / 100) (1 / 100 : ℝ)
  rw [sub_add_cancel] at this
  have e : |(1 : ℝ) / 100| = 1 / 100 := abs_of_nonneg (by norm_num)
  rw [e] at h this
  show |fl 53 (1 / 100)| ≤ _
  linarith

/-- **C107.** The example with its own constants (cahn-hilliard.cpp 57-61, spacing 1, `double`) in one, two or three dimensions: as long as the field stays within `±2`, the mean of the field
moves by at most `2^-47` per step. -/
theorem shipped_drift {g : Shape} (hs : Serial g) (hd : g.dim ≤ 3) (s : Fields (Num 53)) :
    ∃ S : Nat → Fields (Num 53), (∀ n, update g (fun _ => 1) (fun _ _ phi l => chPotential 1 1 1 phi l) (dtNum * 1) n s = .ok (S n)) ∧ S 0 = s ∧
      ∀ n, (∀ j < n, ∀ i, 0 ≤ i → i < g.nodes → |((S j).old i).val| ≤ 2) →
        |mass g (S n).old / g.nodes - mass g s.old / g.nodes| ≤ n * 2 ^ (-47 : ℤ) := by
  obtain ⟨S, h1, h2, h3⟩ := cahnHilliard_drift (p := 53) (by norm_num) hs (fun _ => 1) 1 1 1 1 dtNum s 2
  refine ⟨S, h1, h2, fun n hB => ?_⟩
  have hn : 0 < g.nodes := by
    rw [Shape.nodes_eq hs.wf]
    exact Finset.prod_pos fun j hj => by have := hs.wf.side j (Finset.mem_range.mp hj); omega
  have hN : ((g.nodes.toNat : Nat) : ℝ) = (g.nodes : ℝ) := by
    have : ((g.nodes.toNat : Nat) : Int) = g.nodes := by omega
    exact_mod_cast this
  have h := h3 n hB
  have hpos : (0 : ℝ) < g.nodes := by exact_mod_cast hn
  rw [← sub_div, abs_div, abs_of_pos hpos, div_le_iff₀ hpos]
  refine h.trans ?_
  rw [mul_assoc, hN, mul_comm (2 ^ (-47 : ℤ) : ℝ)]
  refine mul_le_mul_of_nonneg_left (mul_le_mul_of_nonneg_left ?_ hpos.le) (by positivity)
  rw [mul_one_num (by norm_num)]
  have hw : weight g (fun _ => (1 : Num 53)) = g.dim := by
    unfold weight
    simp [lapWeight_one (p := 53) (by norm_num), Num.one_val]
  unfold chDrift
  rw [hw, Num.one_val, abs_one]
  have hc := dtNum_bound
  have he : eps 53 = 1 / 9007199254740992 := by unfold eps; norm_num
  rw [he] at hc ⊢
  have h2 : ((2 : ℝ) ^ (-47 : ℤ)) = 1 / 140737488355328 := by norm_num
  rw [h2]
  have hd0 := hs.wf.dim_pos
  have hcases : g.dim = 1 ∨ g.dim = 2 ∨ g.dim = 3 := by omega
  rcases hcases with e | e | e <;> rw [e] <;> norm_num at hc ⊢ <;> linarith

/-! ## Rounding does move the mass -/

/-- Rounding a number whose digits are known. -/
theorem fl_eval {p : Nat} {x : ℝ} (k : ℤ) (m : ℤ) (h1 : (2 : ℝ) ^ ((p : ℤ) - 1) * 2 ^ k ≤ x) (h2 : x < 2 ^ (p : ℤ) * 2 ^ k) (hr : rne (x / 2 ^ k) = m) : fl p x = m * 2 ^ k := by
  have hk := two_zpow_pos k
  have hx : 0 < x := lt_of_lt_of_le (mul_pos (two_zpow_pos _) hk) h1
  have e : ulpExp p x = k := by
    unfold ulpExp
    have : Int.log 2 |x| = k + (p - 1) := by
      rw [abs_of_pos hx]
      apply le_antisymm
      · have : Int.log 2 x < k + p := by
          rw [← Int.lt_zpow_iff_log_lt (by norm_num) hx]
          rw [zpow_add₀ (by norm_num)]; push_cast; linarith
        omega
      · rw [← Int.zpow_le_iff_le_log (by norm_num) hx, zpow_add₀ (by norm_num)]; push_cast; linarith
    omega
  rw [fl_eq hx.ne', e, hr]

theorem line_serial : Serial (line .periodic .periodic) := by
  refine ⟨⟨by decide, ?_, by decide⟩, rfl, ?_⟩
  · intro j _; simp only [line]; decide
  · intro j _; exact Or.inl ⟨rfl, rfl⟩

theorem lapAt_line (data : Int → Num 53) (n : Int) (a b : Int) (ha : nb (line .periodic .periodic) 0 n true = a) (hb : nb (line .periodic .periodic) 0 n false = b) :
    (lapAt (line .periodic .periodic) (fun _ => 1) data n).val = fl 53 (fl 53 ((data a).val - 2 * (data n).val) + (data b).val) := by
  have hp : 1 ≤ 53 := by norm_num
  unfold lapAt
  show (0 + lapWeight 1 * (data (nb (line .periodic .periodic) 0 n true) - (1 + 1) * data n + data (nb (line .periodic .periodic) 0 n false)) : Num 53).val = _
  rw [ha, hb, lapWeight_one hp, Num.add_val, Num.zero_val, zero_add, Num.mul_val, Num.one_val, one_mul, Num.add_val, Num.sub_val, Num.two_mul_exact hp, fl_rep hp (rep_fl _), fl_rep hp (rep_fl _)]

/-- 0.01 as a `double`. -/
theorem dtNum_val : dtNum.val = 5764607523034235 * 2 ^ (-59 : ℤ) := by
  have := fl_eval (p := 53) (x := 1 / 100) (-59) 5764607523034235 (by norm_num) (by norm_num) (by
    have e : (1 / 100 : ℝ) / 2 ^ (-59 : ℤ) = 144115188075855872 / 25 := by norm_num
    have f : ⌊(144115188075855872 / 25 : ℝ)⌋ = 5764607523034234 := by rw [Int.floor_eq_iff]; norm_num
    rw [e]; unfold rne; rw [f]; norm_num)
  show fl 53 (1 / 100) = _
  rw [this]; norm_num

/-- **C107 (negative).** Exact conservation, which holds in exact arithmetic (C29), fails in `double`s: one step of the example with its own constants on three nodes in a periodic line takes the total
of the field 1, 0, 0 from 1 to `1 - 2^-54`. -/
theorem shipped_loses : ∃ s', update (line .periodic .periodic) (fun _ => 1) (fun _ _ phi l => chPotential 1 1 1 phi l) (dtNum * 1) 1
      ⟨fun n => if n = 0 then 1 else 0, fun _ => 0, fun _ => 0⟩ = .ok s' ∧
    mass (line .periodic .periodic) (fun n => if n = 0 then (1 : Num 53) else 0) = 1 ∧ mass (line .periodic .periodic) s'.old = 1 - 2 ^ (-54 : ℤ) := by
  have hp : 1 ≤ 53 := by norm_num
  have small : ∀ m : ℤ, |m| ≤ 100 → fl 53 (m : ℝ) = m := fun m h => fl_rep hp (rep_int (h.trans (by norm_num)))
  have hN : (line .periodic .periodic).nodes = 3 := by decide
  have hN' : (line .periodic .periodic).nodes.toNat = 3 := by decide
  obtain ⟨temp, ht, he⟩ := step_eq line_serial (fun _ => (1 : Num 53)) (fun _ phi l => chPotential 1 1 1 phi l) (dtNum * 1)
    ⟨fun n => if n = 0 then 1 else 0, fun _ => 0, fun _ => 0⟩
  refine ⟨_, by rw [update, update, Outcome.ok_bind, he], ?_, ?_⟩
  · simp [mass, hN', Finset.sum_range_succ, Num.one_val, Num.zero_val]
  rw [hN] at ht
  have pot : ∀ (phi l : Num 53), (chPotential 1 1 1 phi l).val = fl 53 (fl 53 (-phi.val + fl 53 (fl 53 (phi.val * phi.val) * phi.val)) - l.val) := by
    intro phi l
    unfold chPotential
    rw [Num.sub_val, Num.add_val, Num.mul_val, Num.neg_exact hp, Num.one_val, neg_one_mul, fl_neg, fl_rep hp phi.rep, Num.mul_val, Num.one_val, one_mul, Num.mul_val, Num.mul_val,
      fl_rep hp (rep_fl _), Num.mul_val, Num.one_val, one_mul, fl_rep hp l.rep]
  have z := small 0 (by norm_num)
  have o := small 1 (by norm_num)
  have o' := small (-1) (by norm_num)
  have w2 := small 2 (by norm_num)
  have w2' := small (-2) (by norm_num)
  have w3 := small 3 (by norm_num)
  have w4 := small 4 (by norm_num)
  have w5' := small (-5) (by norm_num)
  have w6' := small (-6) (by norm_num)
  push_cast at z o o' w2 w2' w3 w4 w5' w6'
  have t0 : (temp 0).val = 2 := by
    rw [ht 0 (by norm_num) (by norm_num), pot, lapAt_line _ 0 1 2 (by decide) (by decide)]
    norm_num [Num.one_val, Num.zero_val, z, o, o', w2, w2']
  have t1 : (temp 1).val = -1 := by
    rw [ht 1 (by norm_num) (by norm_num), pot, lapAt_line _ 1 2 0 (by decide) (by decide)]
    norm_num [Num.one_val, Num.zero_val, z, o, o', w2, w2']
  have t2 : (temp 2).val = -1 := by
    rw [ht 2 (by norm_num) (by norm_num), pot, lapAt_line _ 2 0 1 (by decide) (by decide)]
    norm_num [Num.one_val, Num.zero_val, z, o, o', w2, w2']
  have l0 := lapAt_line temp 0 1 2 (by decide) (by decide)
  have l1 := lapAt_line temp 1 2 0 (by decide) (by decide)
  have l2 := lapAt_line temp 2 0 1 (by decide) (by decide)
  rw [t0, t1, t2] at l0 l1 l2
  norm_num [z, o, o', w2, w2', w3, w4, w5', w6'] at l0 l1 l2
  have c3 : fl 53 (dtNum.val * 3) = 8646911284551352 * 2 ^ (-58 : ℤ) := by
    rw [dtNum_val]
    have := fl_eval (p := 53) (x := 5764607523034235 * 2 ^ (-59 : ℤ) * 3) (-58) 8646911284551352 (by norm_num) (by norm_num) (by
      have e : (5764607523034235 * 2 ^ (-59 : ℤ) * 3 : ℝ) / 2 ^ (-58 : ℤ) = ((8646911284551352 : ℤ) : ℝ) + 1 / 2 := by norm_num
      rw [e]; exact rne_half (by decide))
    rw [this]; norm_num
  have c6 : fl 53 (dtNum.val * -6) = -(8646911284551352 * 2 ^ (-57 : ℤ)) := by
    have e : dtNum.val * -6 = -(dtNum.val * 3 * 2 ^ (1 : ℤ)) := by norm_num; ring
    have := fl_eval (p := 53) (x := dtNum.val * 3 * 2 ^ (1 : ℤ)) (-57) 8646911284551352 (by rw [dtNum_val]; norm_num) (by rw [dtNum_val]; norm_num) (by
      have e : (dtNum.val * 3 * 2 ^ (1 : ℤ)) / 2 ^ (-57 : ℤ) = ((8646911284551352 : ℤ) : ℝ) + 1 / 2 := by rw [dtNum_val]; norm_num
      rw [e]; exact rne_half (by decide))
    rw [e, fl_neg, this]; norm_num
  have c1 : fl 53 (1 + -(8646911284551352 * 2 ^ (-57 : ℤ))) = 8466767299456532 * 2 ^ (-53 : ℤ) := by
    have := fl_eval (p := 53) (x := 1 + -(8646911284551352 * 2 ^ (-57 : ℤ))) (-53) 8466767299456532 (by norm_num) (by norm_num) (by
      have e : (1 + -(8646911284551352 * 2 ^ (-57 : ℤ)) : ℝ) / 2 ^ (-53 : ℤ) = ((8466767299456532 : ℤ) : ℝ) + 1 / 2 := by norm_num
      rw [e]; exact rne_half (by decide))
    rw [this]; norm_num
  have f3 : fl 53 (8646911284551352 * 2 ^ (-58 : ℤ)) = 8646911284551352 * 2 ^ (-58 : ℤ) := by rw [← c3]; exact fl_rep hp (rep_fl _)
  unfold mass
  rw [hN']
  simp only [Finset.sum_range_succ, Finset.sum_range_zero, zero_add, hN, mul_one_num hp]
  norm_num only [Nat.cast_zero, Nat.cast_one, Nat.cast_ofNat, if_true, if_false, Num.add_val, Num.mul_val]
  simp only [and_self, if_true, Num.add_val, Num.mul_val]
  rw [l0, l1, l2]
  simp only [Num.one_val, Num.zero_val, zero_add, c3, c6, c1, f3]
  norm_num

/-- The 3 x 4 grid of C29 with the field 1/2, -1, 1/2, -1, …: after one step the mean has moved by at most `2^-47`. -/
example : ∃ s', update box (fun _ => 1) (fun _ _ phi l => chPotential 1 1 1 phi l) (dtNum * 1) 1 ⟨fun n => if n % 2 = 0 then Num.of (1 / 2) else -1, fun _ => 0, fun _ => 0⟩ = .ok s' ∧
    |mass box s'.old / box.nodes - mass box (fun n => if n % 2 = 0 then (Num.of (1 / 2) : Num 53) else -1) / box.nodes| ≤ 1 * 2 ^ (-47 : ℤ) := by
  obtain ⟨S, h1, h2, h3⟩ := shipped_drift box_serial (by decide) ⟨fun n => if n % 2 = 0 then Num.of (1 / 2) else -1, fun _ => 0, fun _ => 0⟩
  refine ⟨S 1, h1 1, ?_⟩
  have := h3 1 (fun j hj i _ _ => by
    have : j = 0 := by omega
    rw [this, h2]
    show |(if i % 2 = 0 then (Num.of (1 / 2) : Num 53) else -1).val| ≤ 2
    split_ifs
    · have e : Rep 53 (1 / 2 : ℝ) := by have := rep_scale (rep_one 53) (-1); norm_num at this ⊢; exact this
      show |fl 53 (1 / 2)| ≤ 2
      rw [fl_rep (by norm_num) e]; norm_num
    · rw [Num.neg_exact (by norm_num), Num.one_val]; norm_num)
  simpa using this

end MMSP.RoundConserve
