import Mathlib.Analysis.Complex.Exponential
import Mathlib.Algebra.Order.Floor.Semiring
import Mathlib.Algebra.BigOperators.Fin
import Mathlib.Data.Fintype.BigOperators
import Mathlib.Data.List.OfFn
import Mathlib.Algebra.BigOperators.Field
import Mathlib.Tactic.LinearCombination
import Mathlib.Tactic.FieldSimp
/-!
# Random walks made by a program and its draws

Nothing here is about MMSP: a program that turns a state and a drawn number into a state, with the draws uniform and independent, is a Markov chain. The transition
probabilities are shares of draws, counted. Used for the spin models (`Verif/SpinSampling.lean`).
-/

namespace MMSP.Sampling

open Finset

/-- The share of the elements of a finite type that satisfy `p`. -/
noncomputable def share {X : Type} [Fintype X] (p : X → Prop) : ℝ := by
  classical exact (#{x | p x} : ℝ) / Fintype.card X

/-- `p` read as a number. -/
noncomputable def ind (p : Prop) : ℝ := by classical exact if p then 1 else 0

theorem ind_pos {p : Prop} (h : p) : ind p = 1 := by unfold ind; exact if_pos h
theorem ind_neg {p : Prop} (h : ¬ p) : ind p = 0 := by unfold ind; exact if_neg h
theorem ind_nonneg (p : Prop) : 0 ≤ ind p := by by_cases h : p; · rw [ind_pos h]; exact zero_le_one
                                                · rw [ind_neg h]

theorem share_eq {X : Type} [Fintype X] (p : X → Prop) : share p = (∑ x, ind (p x)) / Fintype.card X := by
  classical
  unfold share
  congr 1
  rw [Finset.card_filter]
  push_cast
  exact Finset.sum_congr rfl fun x _ => by by_cases h : p x <;> simp [h, ind]

theorem share_nonneg {X : Type} [Fintype X] (p : X → Prop) : 0 ≤ share p := by
  rw [share_eq]; exact div_nonneg (Finset.sum_nonneg fun _ _ => ind_nonneg _) (Nat.cast_nonneg _)

theorem share_congr {X : Type} [Fintype X] {p q : X → Prop} (h : ∀ x, p x ↔ q x) : share p = share q := by
  rw [show p = q from funext fun x => propext (h x)]

theorem share_pos {X : Type} [Fintype X] {p : X → Prop} {x : X} (h : p x) : 0 < share p := by
  rw [share_eq]
  have : Nonempty X := ⟨x⟩
  apply div_pos _ (by exact_mod_cast Fintype.card_pos)
  exact lt_of_lt_of_le (by rw [ind_pos h]; exact one_pos) (Finset.single_le_sum (f := fun x => ind (p x)) (fun _ _ => ind_nonneg _) (Finset.mem_univ x))

theorem share_exists {X : Type} [Fintype X] {p : X → Prop} (h : 0 < share p) : ∃ x, p x := by
  by_contra hn
  rw [not_exists] at hn
  rw [share_eq, Finset.sum_eq_zero fun x _ => ind_neg (hn x), zero_div] at h
  exact lt_irrefl _ h

section
variable {Ω D : Type} [Fintype Ω] [Fintype D] [Nonempty D] (step : Ω → D → Ω)

/-- Probability that `n` steps lead from `a` to `b`: the share of the sequences of `n` draws that do. -/
noncomputable def walk (n : Nat) (a b : Ω) : ℝ := share fun rs : Fin n → D => (List.ofFn rs).foldl step a = b

theorem walk_nonneg (n : Nat) (a b : Ω) : 0 ≤ walk step n a b := share_nonneg _

omit [Fintype Ω] in
theorem walk_zero (a b : Ω) : walk step 0 a b = ind (a = b) := by
  unfold walk
  rw [share_eq, Fintype.sum_unique]
  simp

omit [Fintype Ω] in
theorem walk_cons (n : Nat) (a b : Ω) : walk step (n + 1) a b = (∑ r, walk step n (step a r) b) / Fintype.card D := by
  unfold walk
  simp only [share_eq]
  rw [← Equiv.sum_comp (Fin.consEquiv fun _ => D), Fintype.sum_prod_type, ← Finset.sum_div, div_div]
  congr 1
  · refine Finset.sum_congr rfl fun r _ => Finset.sum_congr rfl fun rs _ => ?_
    simp [Fin.consEquiv, List.ofFn_succ]
  · simp [pow_succ]

omit [Fintype Ω] in
theorem walk_one (a b : Ω) : walk step 1 a b = share fun r => step a r = b := by
  rw [walk_cons, share_eq]
  simp only [walk_zero]

/-- Averages over one draw are averages over the state reached. -/
theorem sum_ind (F : Ω → ℝ) (a : Ω) : ∑ c, ind (a = c) * F c = F a := by
  rw [Finset.sum_eq_single a, ind_pos rfl, one_mul]
  · intro c _ hc; rw [ind_neg (Ne.symm hc), zero_mul]
  · intro h; exact absurd (Finset.mem_univ a) h

theorem walk_succ (n : Nat) (a b : Ω) : walk step (n + 1) a b = ∑ c, walk step 1 a c * walk step n c b := by
  rw [walk_cons]
  simp only [walk_one, share_eq, div_mul_eq_mul_div, Finset.sum_mul]
  rw [← Finset.sum_div, Finset.sum_comm]
  congr 1
  exact Finset.sum_congr rfl fun r _ => (sum_ind (fun c => walk step n c b) (step a r)).symm

theorem walk_add (m n : Nat) (a b : Ω) : walk step (m + n) a b = ∑ c, walk step m a c * walk step n c b := by
  induction m generalizing a with
  | zero => simp only [walk_zero, Nat.zero_add]; exact (sum_ind (fun c => walk step n c b) a).symm
  | succ m ih =>
    rw [show m + 1 + n = (m + n) + 1 by omega, walk_succ]
    simp only [ih, walk_succ step m, Finset.mul_sum, Finset.sum_mul]
    rw [Finset.sum_comm]
    exact Finset.sum_congr rfl fun c _ => Finset.sum_congr rfl fun e _ => by ring

/-- The walk is somewhere. -/
theorem walk_total (n : Nat) (a : Ω) : ∑ b, walk step n a b = 1 := by
  unfold walk
  simp only [share_eq]
  rw [← Finset.sum_div, Finset.sum_comm, Finset.sum_congr rfl fun rs _ => (by
    have := sum_ind (fun _ => (1 : ℝ)) ((List.ofFn rs).foldl step a)
    simpa using this : ∑ b, ind ((List.ofFn rs).foldl step a = b) = 1)]
  rw [Finset.sum_const, nsmul_eq_mul, mul_one, Finset.card_univ]
  exact div_self (by exact_mod_cast Fintype.card_ne_zero)

/-! ## Almost stationary distributions -/

/-- A distribution moved by at most `δ` in one step is moved by at most `n * δ` in `n` steps. -/
theorem stationary_run {π : Ω → ℝ} {δ : ℝ} (h : ∑ b, |∑ a, π a * walk step 1 a b - π b| ≤ δ) (n : Nat) : ∑ b, |∑ a, π a * walk step n a b - π b| ≤ n * δ := by
  induction n with
  | zero =>
    refine le_of_eq ?_
    rw [Nat.cast_zero, zero_mul]
    refine Finset.sum_eq_zero fun b _ => ?_
    simp only [walk_zero]
    have := sum_ind (fun a => π a) b
    rw [abs_eq_zero, sub_eq_zero, ← this]
    refine Finset.sum_congr rfl fun a _ => ?_
    by_cases e : a = b
    · rw [ind_pos e, ind_pos e.symm]; ring
    · rw [ind_neg e, ind_neg (Ne.symm e)]; ring
  | succ n ih =>
    have e : ∀ b, ∑ a, π a * walk step (n + 1) a b - π b = ∑ c, (∑ a, π a * walk step 1 a c - π c) * walk step n c b + (∑ c, π c * walk step n c b - π b) := by
      intro b
      simp only [walk_succ step n, Finset.mul_sum, sub_mul, Finset.sum_sub_distrib, Finset.sum_mul]
      rw [Finset.sum_comm]
      have : ∀ x y : Ω, π y * (walk step 1 y x * walk step n x b) = π y * walk step 1 y x * walk step n x b := fun x y => by ring
      simp only [this]
      ring
    calc ∑ b, |∑ a, π a * walk step (n + 1) a b - π b|
        ≤ ∑ b, (∑ c, |∑ a, π a * walk step 1 a c - π c| * walk step n c b + |∑ c, π c * walk step n c b - π b|) := by
          refine Finset.sum_le_sum fun b _ => ?_
          rw [e b]
          refine le_trans (abs_add_le _ _) (add_le_add_left (le_trans (Finset.abs_sum_le_sum_abs _ _) (le_of_eq ?_)) _)
          exact Finset.sum_congr rfl fun c _ => by rw [abs_mul, abs_of_nonneg (walk_nonneg step n c b)]
      _ = ∑ c, |∑ a, π a * walk step 1 a c - π c| + ∑ b, |∑ c, π c * walk step n c b - π b| := by
          rw [Finset.sum_add_distrib, Finset.sum_comm]
          congr 1
          refine Finset.sum_congr rfl fun c _ => ?_
          rw [← Finset.mul_sum, walk_total, mul_one]
      _ ≤ (n + 1 : Nat) * δ := by push_cast; linarith

/-! ## Forgetting the start -/

theorem walk_trans {m n : Nat} {a b c : Ω} (h1 : 0 < walk step m a b) (h2 : 0 < walk step n b c) : 0 < walk step (m + n) a c := by
  rw [walk_add]
  exact lt_of_lt_of_le (mul_pos h1 h2) (Finset.single_le_sum (f := fun c' => walk step m a c' * walk step n c' c)
    (fun _ _ => mul_nonneg (walk_nonneg step _ _ _) (walk_nonneg step _ _ _)) (Finset.mem_univ b))

theorem stay {z : Ω} (h : 0 < walk step 1 z z) (n : Nat) : 0 < walk step n z z := by
  induction n with
  | zero => rw [walk_zero, ind_pos rfl]; exact one_pos
  | succ n ih => exact walk_trans step ih h

/-- If every state can be reached from every other, and some state can be kept, then after some number of steps every state is possible whatever the start. -/
theorem all_reached (conn : ∀ a b, ∃ n, 0 < walk step n a b) {z : Ω} (hz : 0 < walk step 1 z z) : ∃ K, 0 < K ∧ ∀ a b, 0 < walk step K a b := by
  choose N hN using conn
  refine ⟨∑ a, N a z + ∑ b, N z b + 1, by omega, fun a b => ?_⟩
  have h1 : N a z ≤ ∑ a, N a z := Finset.single_le_sum (f := fun a => N a z) (fun _ _ => Nat.zero_le _) (Finset.mem_univ a)
  have h2 : N z b ≤ ∑ b, N z b := Finset.single_le_sum (f := fun b => N z b) (fun _ _ => Nat.zero_le _) (Finset.mem_univ b)
  have := walk_trans step (walk_trans step (hN a z) (stay step hz (∑ a, N a z - N a z + (∑ b, N z b - N z b) + 1))) (hN z b)
  rwa [show N a z + (∑ a, N a z - N a z + (∑ b, N z b - N z b) + 1) + N z b = ∑ a, N a z + ∑ b, N z b + 1 by omega] at this

/-- A bound on how different two starts still are is multiplied by `1 - ε |Ω|` by further steps that make every state possible with probability `ε` at least. -/
theorem contract {K n : Nat} {ε Δ : ℝ} (hε : ∀ a b, ε ≤ walk step K a b) (hs : ε * Fintype.card Ω < 1) (hΔ : ∀ a a', ∑ b, |walk step n a b - walk step n a' b| ≤ Δ) (a a' : Ω) :
    ∑ b, |walk step (K + n) a b - walk step (K + n) a' b| ≤ (1 - ε * Fintype.card Ω) * Δ := by
  set s := 1 - ε * Fintype.card Ω with hs'
  have hs0 : 0 < s := by linarith
  have hsum : ∀ a, ∑ c, (walk step K a c - ε) = s := by
    intro a
    rw [Finset.sum_sub_distrib, walk_total, Finset.sum_const, nsmul_eq_mul, Finset.card_univ, hs']; ring
  have key : ∀ b, s * (walk step (K + n) a b - walk step (K + n) a' b) = ∑ c, ∑ c', (walk step K a c - ε) * (walk step K a' c' - ε) * (walk step n c b - walk step n c' b) := by
    intro b
    have e1 : ∑ c, ∑ c', (walk step K a c - ε) * (walk step K a' c' - ε) * (walk step n c b - walk step n c' b) =
        (∑ c, (walk step K a c - ε) * walk step n c b) * ∑ c', (walk step K a' c' - ε) - (∑ c, (walk step K a c - ε)) * ∑ c', (walk step K a' c' - ε) * walk step n c' b := by
      rw [Finset.sum_mul_sum, Finset.sum_mul_sum, ← Finset.sum_sub_distrib]
      refine Finset.sum_congr rfl fun c _ => ?_
      rw [← Finset.sum_sub_distrib]
      exact Finset.sum_congr rfl fun c' _ => by ring
    rw [e1, hsum, hsum, walk_add, walk_add]
    simp only [sub_mul, Finset.sum_sub_distrib]
    ring
  have h : s * ∑ b, |walk step (K + n) a b - walk step (K + n) a' b| ≤ s * (s * Δ) := by
    calc s * ∑ b, |walk step (K + n) a b - walk step (K + n) a' b|
        = ∑ b, |∑ c, ∑ c', (walk step K a c - ε) * (walk step K a' c' - ε) * (walk step n c b - walk step n c' b)| := by
          rw [Finset.mul_sum]
          exact Finset.sum_congr rfl fun b _ => by rw [← key b, abs_mul, abs_of_pos hs0]
      _ ≤ ∑ b, ∑ c, ∑ c', (walk step K a c - ε) * (walk step K a' c' - ε) * |walk step n c b - walk step n c' b| := by
          refine Finset.sum_le_sum fun b _ => le_trans (Finset.abs_sum_le_sum_abs _ _) (Finset.sum_le_sum fun c _ => le_trans (Finset.abs_sum_le_sum_abs _ _) (le_of_eq ?_))
          refine Finset.sum_congr rfl fun c' _ => ?_
          rw [abs_mul, abs_of_nonneg (mul_nonneg (by linarith [hε a c]) (by linarith [hε a' c']))]
      _ = ∑ c, ∑ c', (walk step K a c - ε) * (walk step K a' c' - ε) * ∑ b, |walk step n c b - walk step n c' b| := by
          rw [Finset.sum_comm]
          refine Finset.sum_congr rfl fun c _ => ?_
          rw [Finset.sum_comm]
          exact Finset.sum_congr rfl fun c' _ => by rw [Finset.mul_sum]
      _ ≤ ∑ c, ∑ c', (walk step K a c - ε) * (walk step K a' c' - ε) * Δ :=
          Finset.sum_le_sum fun c _ => Finset.sum_le_sum fun c' _ => mul_le_mul_of_nonneg_left (hΔ c c') (mul_nonneg (by linarith [hε a c]) (by linarith [hε a' c']))
      _ = s * (s * Δ) := by
          simp only [← Finset.sum_mul, ← Finset.mul_sum, hsum]
          ring
  exact le_of_mul_le_mul_left h hs0

/-- The influence of the start decays exponentially. -/
theorem forgets (conn : ∀ a b, ∃ n, 0 < walk step n a b) {z : Ω} (hz : 0 < walk step 1 z z) :
    ∃ (K : Nat) (ρ : ℝ), 0 < K ∧ 0 < ρ ∧ ρ < 1 ∧ ∀ n a a', ∑ b, |walk step n a b - walk step n a' b| ≤ 2 * ρ ^ (n / K) := by
  obtain ⟨K, hK, hpos⟩ := all_reached step conn hz
  have : Nonempty Ω := ⟨z⟩
  have hc : (0 : ℝ) < Fintype.card Ω := by exact_mod_cast Fintype.card_pos
  obtain ⟨x, -, hx⟩ := Finset.exists_min_image (Finset.univ : Finset (Ω × Ω)) (fun x => walk step K x.1 x.2) ⟨(z, z), Finset.mem_univ _⟩
  set ε := walk step K x.1 x.2 / 2 with hε
  have hε0 : 0 < ε := half_pos (hpos _ _)
  have hle : ∀ a b, 2 * ε ≤ walk step K a b := fun a b => by have := hx (a, b) (Finset.mem_univ _); rw [hε]; linarith
  have hsum : 2 * ε * Fintype.card Ω ≤ 1 := by
    rw [← walk_total step K z, mul_comm, ← nsmul_eq_mul, ← Finset.card_univ]
    exact Finset.card_nsmul_le_sum _ _ _ fun b _ => hle z b
  have hεc : 0 < ε * Fintype.card Ω := mul_pos hε0 hc
  refine ⟨K, 1 - ε * Fintype.card Ω, hK, by linarith, by linarith, ?_⟩
  have base : ∀ n a a', ∑ b, |walk step n a b - walk step n a' b| ≤ 2 := by
    intro n a a'
    calc ∑ b, |walk step n a b - walk step n a' b| ≤ ∑ b, (walk step n a b + walk step n a' b) :=
          Finset.sum_le_sum fun b _ => abs_le.2 ⟨by linarith [walk_nonneg step n a b, walk_nonneg step n a' b], by linarith [walk_nonneg step n a b, walk_nonneg step n a' b]⟩
      _ = 2 := by rw [Finset.sum_add_distrib, walk_total, walk_total]; norm_num
  have main : ∀ k j a a', ∑ b, |walk step (k * K + j) a b - walk step (k * K + j) a' b| ≤ 2 * (1 - ε * Fintype.card Ω) ^ k := by
    intro k j
    induction k with
    | zero => intro a a'; rw [Nat.zero_mul, Nat.zero_add, pow_zero, mul_one]; exact base _ _ _
    | succ k ih =>
      intro a a'
      have := contract step (K := K) (n := k * K + j) (ε := ε) (fun a b => by linarith [hle a b]) (by linarith) ih a a'
      rw [show (k + 1) * K + j = K + (k * K + j) by ring, pow_succ]
      linarith
  intro n a a'
  have := main (n / K) (n % K) a a'
  rwa [show n / K * K + n % K = n by rw [Nat.mul_comm]; exact Nat.div_add_mod n K] at this

/-- From any start the distribution after `n` steps is close to an almost stationary one. -/
theorem samples {π : Ω → ℝ} {δ : ℝ} (hπ0 : ∀ a, 0 ≤ π a) (hπ1 : ∑ a, π a = 1) (h : ∑ b, |∑ a, π a * walk step 1 a b - π b| ≤ δ) (conn : ∀ a b, ∃ n, 0 < walk step n a b) {z : Ω}
    (hz : 0 < walk step 1 z z) :
    ∃ (K : Nat) (ρ : ℝ), 0 < K ∧ 0 < ρ ∧ ρ < 1 ∧ ∀ n a, ∑ b, |walk step n a b - π b| ≤ 2 * ρ ^ (n / K) + n * δ := by
  obtain ⟨K, ρ, hK, h0, h1, hf⟩ := forgets step conn hz
  refine ⟨K, ρ, hK, h0, h1, fun n a => ?_⟩
  calc ∑ b, |walk step n a b - π b|
      ≤ ∑ b, (∑ a', π a' * |walk step n a b - walk step n a' b| + |∑ a', π a' * walk step n a' b - π b|) := by
        refine Finset.sum_le_sum fun b _ => ?_
        have e : walk step n a b - π b = ∑ a', π a' * (walk step n a b - walk step n a' b) + (∑ a', π a' * walk step n a' b - π b) := by
          simp only [mul_sub, Finset.sum_sub_distrib, ← Finset.sum_mul, hπ1]; ring
        rw [e]
        refine le_trans (abs_add_le _ _) (add_le_add_left (le_trans (Finset.abs_sum_le_sum_abs _ _) (le_of_eq ?_)) _)
        exact Finset.sum_congr rfl fun c _ => by rw [abs_mul, abs_of_nonneg (hπ0 c)]
    _ = ∑ a', π a' * ∑ b, |walk step n a b - walk step n a' b| + ∑ b, |∑ a', π a' * walk step n a' b - π b| := by
        rw [Finset.sum_add_distrib, Finset.sum_comm]
        simp only [Finset.mul_sum]
    _ ≤ ∑ a', π a' * (2 * ρ ^ (n / K)) + n * δ :=
        add_le_add (Finset.sum_le_sum fun a' _ => mul_le_mul_of_nonneg_left (hf n a a') (hπ0 a')) (stationary_run step h n)
    _ = 2 * ρ ^ (n / K) + n * δ := by rw [← Finset.sum_mul, hπ1, one_mul]

end

/-! ## The rule of Metropolis -/

section
variable {Ω P : Type} [Fintype Ω] [Fintype P] [Nonempty P] {M : Nat}

/-- The test of the examples, `dE<=0.0` or `r<exp(-dE/kT)` with `r = double(rand())/double(RAND_MAX)`. -/
def Accepts (M : Nat) (kT : ℝ) (dE : ℝ) (k : Nat) : Prop := dE ≤ 0 ∨ (k : ℝ) / M < Real.exp (-dE / kT)

/-- The share of the numbers drawn that lead to acceptance is the probability of Metropolis up to the resolution of `rand()`. -/
theorem accepts_share (hM : 0 < M) {kT : ℝ} (hT : 0 < kT) (dE : ℝ) : |share (fun k : Fin (M + 1) => Accepts M kT dE k) - min 1 (Real.exp (-dE / kT))| ≤ 1 / (M + 1) := by
  classical
  have hM' : (0 : ℝ) < M := by exact_mod_cast hM
  by_cases hd : dE ≤ 0
  · have h1 : share (fun k : Fin (M + 1) => Accepts M kT dE k) = 1 := by
      rw [share_eq, Finset.sum_congr rfl fun k _ => ind_pos (show Accepts M kT dE (k : Fin (M + 1)) from Or.inl hd)]
      rw [Finset.sum_const, nsmul_eq_mul, mul_one, Finset.card_univ]
      exact div_self (by rw [Fintype.card_fin]; positivity)
    rw [h1, min_eq_left, sub_self, abs_zero]
    · positivity
    · rw [← Real.exp_zero]; exact Real.exp_le_exp.2 (div_nonneg (by linarith) hT.le)
  · rw [not_le] at hd
    set x := Real.exp (-dE / kT) with hx
    have hx0 : 0 < x := Real.exp_pos _
    have hx1 : x < 1 := by rw [hx, ← Real.exp_zero]; exact Real.exp_lt_exp.2 (div_neg_of_neg_of_pos (by linarith) hT)
    have hcount : #{k : Fin (M + 1) | Accepts M kT dE k} = ⌈M * x⌉₊ := by
      have hlt : ⌈M * x⌉₊ ≤ M + 1 := by
        rw [Nat.ceil_le]; push_cast; nlinarith
      have : #{k : Fin (M + 1) | Accepts M kT dE k} = #{k : Fin (M + 1) | (k : Nat) < ⌈M * x⌉₊} := by
        congr 1
        ext k
        simp only [Finset.mem_filter, Finset.mem_univ, true_and, Accepts, not_le.2 hd, false_or, Nat.lt_ceil, ← hx]
        rw [div_lt_iff₀ hM', mul_comm]
      rw [this, Fin.card_filter_val_lt, min_eq_right hlt]
    unfold share
    rw [min_eq_right hx1.le]
    have e : (#{k : Fin (M + 1) | Accepts M kT dE k} : ℝ) = (⌈M * x⌉₊ : ℝ) := by exact_mod_cast hcount
    rw [Fintype.card_fin, show ((M + 1 : Nat) : ℝ) = (M : ℝ) + 1 by push_cast; ring]
    have h1 := Nat.le_ceil ((M : ℝ) * x)
    have h2 := Nat.ceil_lt_add_one (show (0 : ℝ) ≤ M * x by positivity)
    have h3 : (0 : ℝ) < M + 1 := by positivity
    rw [show (#{k : Fin (M + 1) | Accepts M kT dE k} : ℝ) / ((M : ℝ) + 1) - x = ((⌈M * x⌉₊ : ℝ) - (M + 1) * x) / (M + 1) by rw [e]; field_simp, abs_div, abs_of_pos h3]
    exact div_le_div_of_nonneg_right (abs_le.2 ⟨by nlinarith, by nlinarith⟩) h3.le

/-- A step: from `a` a draw proposes `move a p`; it is taken if a second draw accepts the energy change. -/
def Follows (M : Nat) (kT : ℝ) (E : Ω → ℝ) (move : Ω → P → Ω) (step : Ω → P × Fin (M + 1) → Ω) : Prop :=
  ∀ a p k, (Accepts M kT (E (move a p) - E a) (k : Fin (M + 1)) → step a (p, k) = move a p) ∧ (¬ Accepts M kT (E (move a p) - E a) k → step a (p, k) = a)

variable {kT : ℝ} {E : Ω → ℝ} {move : Ω → P → Ω} {step : Ω → P × Fin (M + 1) → Ω} (hf : Follows M kT E move step)
include hf

omit [Fintype Ω] in
/-- Leaving `a` for another state needs the proposal and its acceptance. -/
theorem walk_off {a b : Ω} (hab : a ≠ b) : walk step 1 a b = share (fun p => move a p = b) * share fun k : Fin (M + 1) => Accepts M kT (E b - E a) k := by
  rw [walk_one]
  simp only [share_eq]
  rw [Fintype.sum_prod_type, div_mul_div_comm, Finset.sum_mul_sum, Fintype.card_prod]
  push_cast
  congr 1
  refine Finset.sum_congr rfl fun p _ => Finset.sum_congr rfl fun k _ => ?_
  by_cases hp : move a p = b
  · by_cases hk : Accepts M kT (E b - E a) k
    · rw [ind_pos hp, ind_pos hk, ind_pos, one_mul]
      rw [(hf a p k).1 (by rw [hp]; exact hk), hp]
    · rw [ind_neg hk, mul_zero, ind_neg]
      rw [(hf a p k).2 (by rw [hp]; exact hk)]; exact hab
  · rw [ind_neg hp, zero_mul, ind_neg]
    by_cases hk : Accepts M kT (E (move a p) - E a) k
    · rw [(hf a p k).1 hk]; exact hp
    · rw [(hf a p k).2 hk]; exact hab

omit [Fintype Ω] in
/-- Detailed balance up to the resolution of `rand()`: what flows from `a` to `b` and back differs by a share `1/(RAND_MAX+1)` of what is proposed. -/
theorem balance (hM : 0 < M) (hT : 0 < kT) {q : Ω → ℝ} (hq : ∀ a, 0 ≤ q a) (hsym : ∀ a b, a ≠ b → q a * share (fun p => move a p = b) = q b * share (fun p => move b p = a)) {a b : Ω}
    (hab : a ≠ b) :
    |q a * Real.exp (-E a / kT) * walk step 1 a b - q b * Real.exp (-E b / kT) * walk step 1 b a| ≤
      (q a * Real.exp (-E a / kT) * share (fun p => move a p = b) + q b * Real.exp (-E b / kT) * share (fun p => move b p = a)) / (M + 1) := by
  rw [walk_off hf hab, walk_off hf hab.symm]
  set A := share fun k : Fin (M + 1) => Accepts M kT (E b - E a) k
  set B := share fun k : Fin (M + 1) => Accepts M kT (E a - E b) k
  have hA := accepts_share hM hT (E b - E a)
  have hB := accepts_share hM hT (E a - E b)
  set T := share (fun p => move a p = b)
  set T' := share (fun p => move b p = a)
  have hqT := hsym a b hab
  have hT0 : 0 ≤ q a * T := mul_nonneg (hq a) (share_nonneg _)
  have hab' : Real.exp (-E a / kT) * min 1 (Real.exp (-(E b - E a) / kT)) = Real.exp (-E b / kT) * min 1 (Real.exp (-(E a - E b) / kT)) := by
    have e1 : Real.exp (-E a / kT) * Real.exp (-(E b - E a) / kT) = Real.exp (-E b / kT) := by rw [← Real.exp_add]; congr 1; ring
    have e2 : Real.exp (-E b / kT) * Real.exp (-(E a - E b) / kT) = Real.exp (-E a / kT) := by rw [← Real.exp_add]; congr 1; ring
    rw [mul_min_of_nonneg _ _ (Real.exp_pos _).le, mul_min_of_nonneg _ _ (Real.exp_pos _).le, mul_one, mul_one, e1, e2, min_comm]
  set x := min 1 (Real.exp (-(E b - E a) / kT))
  set y := min 1 (Real.exp (-(E a - E b) / kT))
  have e : q a * Real.exp (-E a / kT) * (T * A) - q b * Real.exp (-E b / kT) * (T' * B) =
      q a * Real.exp (-E a / kT) * T * (A - x) - q b * Real.exp (-E b / kT) * T' * (B - y) := by
    have : q a * Real.exp (-E a / kT) * T * x = q b * Real.exp (-E b / kT) * T' * y := by
      calc q a * Real.exp (-E a / kT) * T * x = q a * T * (Real.exp (-E a / kT) * x) := by ring
        _ = q b * T' * (Real.exp (-E b / kT) * y) := by rw [hqT, hab']
        _ = _ := by ring
    linear_combination this
  rw [e]
  have hwa : 0 ≤ q a * Real.exp (-E a / kT) * T := mul_nonneg (mul_nonneg (hq a) (Real.exp_pos _).le) (share_nonneg _)
  have hwb : 0 ≤ q b * Real.exp (-E b / kT) * T' := mul_nonneg (mul_nonneg (hq b) (Real.exp_pos _).le) (share_nonneg _)
  calc |q a * Real.exp (-E a / kT) * T * (A - x) - q b * Real.exp (-E b / kT) * T' * (B - y)|
      ≤ |q a * Real.exp (-E a / kT) * T * (A - x)| + |q b * Real.exp (-E b / kT) * T' * (B - y)| := abs_sub _ _
    _ ≤ q a * Real.exp (-E a / kT) * T * (1 / (M + 1)) + q b * Real.exp (-E b / kT) * T' * (1 / (M + 1)) := by
        rw [abs_mul (q a * Real.exp (-E a / kT) * T), abs_mul (q b * Real.exp (-E b / kT) * T'), abs_of_nonneg hwa, abs_of_nonneg hwb]
        exact add_le_add (mul_le_mul_of_nonneg_left hA hwa) (mul_le_mul_of_nonneg_left hB hwb)
    _ = _ := by ring

end

/-- The distribution with weights `q a * exp (-E a / kT)`. -/
noncomputable def gibbs {Ω : Type} [Fintype Ω] (kT : ℝ) (E q : Ω → ℝ) (a : Ω) : ℝ := q a * Real.exp (-E a / kT) / ∑ b, q b * Real.exp (-E b / kT)

theorem gibbs_nonneg {Ω : Type} [Fintype Ω] {kT : ℝ} {E q : Ω → ℝ} (hq : ∀ a, 0 ≤ q a) (a : Ω) : 0 ≤ gibbs kT E q a :=
  div_nonneg (mul_nonneg (hq a) (Real.exp_pos _).le) (Finset.sum_nonneg fun b _ => mul_nonneg (hq b) (Real.exp_pos _).le)

theorem gibbs_total {Ω : Type} [Fintype Ω] [Nonempty Ω] {kT : ℝ} {E q : Ω → ℝ} (hq : ∀ a, 0 < q a) : ∑ a, gibbs kT E q a = 1 := by
  unfold gibbs
  rw [← Finset.sum_div]
  exact div_self (Finset.sum_pos (fun b _ => mul_pos (hq b) (Real.exp_pos _)) Finset.univ_nonempty).ne'

theorem proposals_total {Ω P : Type} [Fintype Ω] [Fintype P] [Nonempty P] (f : P → Ω) : ∑ b, share (fun p => f p = b) = 1 := by
  have := walk_total (fun (_ : Ω) p => f p) 1 (f (Classical.arbitrary P))
  simpa only [walk_one] using this

/-- One step moves the distribution with weights `q exp(-E/kT)` by at most `2/(RAND_MAX+1)`. -/
theorem gibbs_step {Ω P : Type} [Fintype Ω] [Fintype P] [Nonempty P] {M : Nat} {kT : ℝ} {E : Ω → ℝ} {move : Ω → P → Ω} {step : Ω → P × Fin (M + 1) → Ω}
    (hf : Follows M kT E move step) (hM : 0 < M) (hT : 0 < kT) {q : Ω → ℝ} (hq : ∀ a, 0 < q a)
    (hsym : ∀ a b, a ≠ b → q a * share (fun p => move a p = b) = q b * share (fun p => move b p = a)) :
    ∑ b, |∑ a, gibbs kT E q a * walk step 1 a b - gibbs kT E q b| ≤ 2 / (M + 1) := by
  rcases isEmpty_or_nonempty Ω with h | h
  · rw [Finset.univ_eq_empty, Finset.sum_empty]; positivity
  set Z := ∑ b, q b * Real.exp (-E b / kT) with hZ
  have hZ0 : 0 < Z := Finset.sum_pos (fun b _ => mul_pos (hq b) (Real.exp_pos _)) Finset.univ_nonempty
  set π := gibbs kT E q with hπ
  have hπ0 : ∀ a, 0 ≤ π a := gibbs_nonneg fun a => (hq a).le
  have hbal : ∀ a b, |π a * walk step 1 a b - π b * walk step 1 b a| ≤ (π a * share (fun p => move a p = b) + π b * share (fun p => move b p = a)) / (M + 1) := by
    intro a b
    by_cases hab : a = b
    · rw [hab, sub_self, abs_zero]
      exact div_nonneg (add_nonneg (mul_nonneg (hπ0 _) (share_nonneg _)) (mul_nonneg (hπ0 _) (share_nonneg _))) (by positivity)
    · have hb := balance hf hM hT (fun a => (hq a).le) hsym hab
      have e1 : π a * walk step 1 a b - π b * walk step 1 b a = (q a * Real.exp (-E a / kT) * walk step 1 a b - q b * Real.exp (-E b / kT) * walk step 1 b a) / Z := by
        simp only [hπ, gibbs, ← hZ]; ring
      have e2 : (π a * share (fun p => move a p = b) + π b * share (fun p => move b p = a)) / (M + 1) =
          (q a * Real.exp (-E a / kT) * share (fun p => move a p = b) + q b * Real.exp (-E b / kT) * share (fun p => move b p = a)) / (M + 1) / Z := by
        simp only [hπ, gibbs, ← hZ]; ring
      rw [e1, e2, abs_div, abs_of_pos hZ0]
      exact div_le_div_of_nonneg_right hb hZ0.le
  calc ∑ b, |∑ a, π a * walk step 1 a b - π b|
      = ∑ b, |∑ a, (π a * walk step 1 a b - π b * walk step 1 b a)| := by
        refine Finset.sum_congr rfl fun b _ => ?_
        rw [Finset.sum_sub_distrib, ← Finset.mul_sum, walk_total, mul_one]
    _ ≤ ∑ b, ∑ a, (π a * share (fun p => move a p = b) + π b * share (fun p => move b p = a)) / (M + 1) :=
        Finset.sum_le_sum fun b _ => le_trans (Finset.abs_sum_le_sum_abs _ _) (Finset.sum_le_sum fun a _ => hbal a b)
    _ = 2 / (M + 1) := by
        simp only [← Finset.sum_div, Finset.sum_add_distrib]
        rw [Finset.sum_comm]
        simp only [← Finset.mul_sum, proposals_total, mul_one]
        rw [hπ, gibbs_total hq]; norm_num

end MMSP.Sampling
