import Verif.SpinSampling
import Verif.HeisenbergDir
import Mathlib.Topology.MetricSpace.Cauchy
import Mathlib.Analysis.SpecificLimits.Basic
/-!
# Runs with the same random numbers become equal (C128)

An attempt of the Potts or of the Heisenberg example proposes a value that does not depend on the present one, and accepts it for certain when `rand()` returns 0 for the last time.
So two runs that draw the same numbers agree from the moment on when every site has had such an attempt, whatever grids they started from.
-/

namespace MMSP.Coalesce

open Finset MMSP.Spin MMSP.Sampling MMSP.SpinSampling MMSP.HeisenbergDir

/-! ## Shares of sequences -/

theorem share_mono {X : Type} [Fintype X] {p q : X → Prop} (h : ∀ x, p x → q x) : share p ≤ share q := by
  rw [share_eq, share_eq]
  refine div_le_div_of_nonneg_right (Finset.sum_le_sum fun x _ => ?_) (Nat.cast_nonneg _)
  by_cases hp : p x
  · rw [ind_pos hp, ind_pos (h x hp)]
  · rw [ind_neg hp]; exact ind_nonneg _

theorem share_true {X : Type} [Fintype X] [Nonempty X] : share (fun _ : X => True) = 1 := by
  rw [share_eq, Finset.sum_congr rfl fun x _ => ind_pos trivial, Finset.sum_const, nsmul_eq_mul, mul_one, Finset.card_univ]
  exact div_self (by exact_mod_cast Fintype.card_ne_zero)

theorem share_not {X : Type} [Fintype X] [Nonempty X] (p : X → Prop) : share (fun x => ¬ p x) = 1 - share p := by
  have h : share p + share (fun x => ¬ p x) = 1 := by
    rw [← share_true (X := X), share_eq, share_eq, share_eq, ← add_div, ← Finset.sum_add_distrib]
    congr 1
    refine Finset.sum_congr rfl fun x _ => ?_
    by_cases hp : p x
    · rw [ind_pos hp, ind_neg (not_not.2 hp), ind_pos trivial, add_zero]
    · rw [ind_neg hp, ind_pos hp, ind_pos trivial, zero_add]
  linarith

/-- The share of the sequences with every element in a given set is the product of the shares. -/
theorem share_all {N : Nat} {D : Type} [Fintype D] (p : Fin N → D → Prop) : share (fun rs : Fin N → D => ∀ i, p i (rs i)) = ∏ i, share (p i) := by
  classical
  have h : (Finset.univ.filter fun rs : Fin N → D => ∀ i, p i (rs i)) = Fintype.piFinset fun i => Finset.univ.filter (p i) := by
    ext rs; simp [Fintype.mem_piFinset]
  have e1 : share (fun rs : Fin N → D => ∀ i, p i (rs i)) = ((Finset.univ.filter fun rs : Fin N → D => ∀ i, p i (rs i)).card : ℝ) / Fintype.card (Fin N → D) := by
    unfold share; congr!
  have e2 : ∀ i, share (p i) = ((Finset.univ.filter (p i)).card : ℝ) / Fintype.card D := fun i => by unfold share; congr!
  rw [e1, h, Fintype.card_piFinset, Finset.prod_congr rfl fun i _ => e2 i, Finset.prod_div_distrib]
  push_cast
  simp

/-- A sequence of `m+n` draws is one of `m` followed by one of `n`. -/
theorem share_split {m n : Nat} {D : Type} [Fintype D] [Nonempty D] (Q : (Fin (m + n) → D) → Prop) :
    share Q = (∑ rs : Fin m → D, share fun rs' : Fin n → D => Q (Fin.append rs rs')) / Fintype.card (Fin m → D) := by
  simp only [share_eq]
  rw [← Equiv.sum_comp (Fin.appendEquiv m n), Fintype.sum_prod_type, ← Finset.sum_div, div_div]
  congr 1
  rw [← Fintype.card_congr (Fin.appendEquiv (α := D) m n), Fintype.card_prod]
  push_cast
  ring

/-! ## Walks that meet -/

section
variable {A D : Type} [Fintype D] [Nonempty D] {step : A → D → A} {R : A → A → Prop}

omit [Fintype D] [Nonempty D] in
theorem fold_keeps (hR : ∀ a b r, R a b → R (step a r) (step b r)) (l : List D) {a b : A} (h : R a b) : R (l.foldl step a) (l.foldl step b) := by
  induction l generalizing a b with
  | nil => exact h
  | cons r l ih => exact ih (hR a b r h)

/-- If a share `ε` of the sequences of `K` draws makes any two walks meet, and walks that met stay together, then walks are apart after `n` draws for at most a share `(1-ε)^(n/K)`. -/
theorem apart {K : Nat} {G : (Fin K → D) → Prop} {ε : ℝ} (hK : 0 < K) (hR : ∀ a b r, R a b → R (step a r) (step b r))
    (hG : ∀ rs, G rs → ∀ a b, R ((List.ofFn rs).foldl step a) ((List.ofFn rs).foldl step b)) (hε : ε ≤ share G) (n : Nat) (a b : A) :
    share (fun rs : Fin n → D => ¬ R ((List.ofFn rs).foldl step a) ((List.ofFn rs).foldl step b)) ≤ (1 - ε) ^ (n / K) := by
  induction n using Nat.strong_induction_on generalizing a b with
  | _ n ih =>
    by_cases hn : n < K
    · rw [Nat.div_eq_of_lt hn, pow_zero]
      exact (share_mono fun _ _ => trivial).trans share_true.le
    · obtain ⟨m, rfl⟩ : ∃ m, n = K + m := ⟨n - K, by omega⟩
      have hG1 : share G ≤ 1 := (share_mono fun _ _ => trivial).trans share_true.le
      have hp : 0 ≤ (1 - ε) ^ (m / K) := pow_nonneg (by linarith) _
      rw [share_split, Nat.add_div_left m hK, pow_succ]
      have hc : (0 : ℝ) < Fintype.card (Fin K → D) := by exact_mod_cast Fintype.card_pos
      calc (∑ rs : Fin K → D, share fun rs' : Fin m → D => ¬ R ((List.ofFn (Fin.append rs rs')).foldl step a) ((List.ofFn (Fin.append rs rs')).foldl step b)) / Fintype.card (Fin K → D)
          ≤ (∑ rs : Fin K → D, (1 - ε) ^ (m / K) * ind (¬ G rs)) / Fintype.card (Fin K → D) := by
            refine div_le_div_of_nonneg_right (Finset.sum_le_sum fun rs _ => ?_) hc.le
            simp only [List.ofFn_fin_append, List.foldl_append]
            by_cases hg : G rs
            · rw [ind_neg (not_not.2 hg), mul_zero, share_eq, Finset.sum_congr rfl fun rs' _ => ind_neg (not_not.2 (fold_keeps hR _ (hG rs hg a b)))]
              simp
            · rw [ind_pos hg, mul_one]
              exact ih m (by omega) _ _
        _ = (1 - ε) ^ (m / K) * share (fun rs => ¬ G rs) := by rw [share_eq, ← Finset.mul_sum, mul_div_assoc]
        _ ≤ _ := mul_le_mul_of_nonneg_left (by rw [share_not]; linarith) hp

/-- Then the probability of everything that can be seen of the walk has a limit, the same for all starts. -/
theorem limit {δ : Nat → ℝ} (hδ : ∀ n a b, share (fun rs : Fin n → D => ¬ R ((List.ofFn rs).foldl step a) ((List.ofFn rs).foldl step b)) ≤ δ n) (h0 : Filter.Tendsto δ Filter.atTop (nhds 0))
    {Q : A → Prop} (hQ : ∀ a b, R a b → Q a → Q b) [Nonempty A] :
    ∃ L : ℝ, 0 ≤ L ∧ L ≤ 1 ∧ ∀ n a, |share (fun rs : Fin n → D => Q ((List.ofFn rs).foldl step a)) - L| ≤ δ n := by
  have close : ∀ n a b, share (fun rs : Fin n → D => Q ((List.ofFn rs).foldl step a)) ≤ share (fun rs : Fin n → D => Q ((List.ofFn rs).foldl step b)) + δ n := by
    intro n a b
    refine le_trans ?_ (add_le_add_right (hδ n a b) _)
    rw [share_eq, share_eq, share_eq, ← add_div, ← Finset.sum_add_distrib]
    refine div_le_div_of_nonneg_right (Finset.sum_le_sum fun rs _ => ?_) (Nat.cast_nonneg _)
    by_cases h : R ((List.ofFn rs).foldl step a) ((List.ofFn rs).foldl step b)
    · by_cases hq : Q ((List.ofFn rs).foldl step a)
      · rw [ind_pos hq, ind_pos (hQ _ _ h hq)]; linarith [ind_nonneg (¬ R ((List.ofFn rs).foldl step a) ((List.ofFn rs).foldl step b))]
      · rw [ind_neg hq]; exact add_nonneg (ind_nonneg _) (ind_nonneg _)
    · rw [ind_pos h]
      have h1 : ind (Q ((List.ofFn rs).foldl step a)) ≤ 1 := by by_cases hq : Q ((List.ofFn rs).foldl step a); · rw [ind_pos hq]
                                                                · rw [ind_neg hq]; exact zero_le_one
      linarith [ind_nonneg (Q ((List.ofFn rs).foldl step b))]
  have later : ∀ n m a b, |share (fun rs : Fin (m + n) → D => Q ((List.ofFn rs).foldl step a)) - share (fun rs : Fin n → D => Q ((List.ofFn rs).foldl step b))| ≤ δ n := by
    intro n m a b
    have hc : (0 : ℝ) < Fintype.card (Fin m → D) := by exact_mod_cast Fintype.card_pos
    rw [share_split]
    simp only [List.ofFn_fin_append, List.foldl_append]
    have h1 : ∀ c, |share (fun rs : Fin n → D => Q ((List.ofFn rs).foldl step c)) - share (fun rs : Fin n → D => Q ((List.ofFn rs).foldl step b))| ≤ δ n := fun c =>
      abs_le.2 ⟨by linarith [close n b c], by linarith [close n c b]⟩
    have h2 : ∀ x : ℝ, x = (∑ _rs : Fin m → D, x) / Fintype.card (Fin m → D) := fun x => by
      rw [Finset.sum_const, nsmul_eq_mul, Finset.card_univ, mul_div_cancel_left₀ _ hc.ne']
    rw [h2 (share fun rs : Fin n → D => Q ((List.ofFn rs).foldl step b)), ← sub_div, ← Finset.sum_sub_distrib, abs_div, abs_of_pos hc, h2 (δ n)]
    exact div_le_div_of_nonneg_right ((Finset.abs_sum_le_sum_abs _ _).trans (Finset.sum_le_sum fun rs _ => h1 _)) hc.le
  obtain ⟨a0⟩ := ‹Nonempty A›
  have far : ∀ n k, n ≤ k → ∀ a, |share (fun rs : Fin n → D => Q ((List.ofFn rs).foldl step a)) - share (fun rs : Fin k → D => Q ((List.ofFn rs).foldl step a0))| ≤ δ n := by
    intro n k hk a
    obtain ⟨m, rfl⟩ : ∃ m, k = m + n := ⟨k - n, by omega⟩
    rw [abs_sub_comm]
    exact later n m a0 a
  obtain ⟨L, hL⟩ := cauchySeq_tendsto_of_complete (cauchySeq_of_le_tendsto_0' (s := fun k => share (fun rs : Fin k → D => Q ((List.ofFn rs).foldl step a0))) δ
    (fun n k hk => by rw [Real.dist_eq]; exact far n k hk a0) h0)
  refine ⟨L, ge_of_tendsto' hL fun k => share_nonneg _, le_of_tendsto' hL fun k => (share_mono fun _ _ => trivial).trans share_true.le, fun n a => ?_⟩
  refine le_of_tendsto ((tendsto_const_nhds.sub hL).abs) ?_
  filter_upwards [Filter.eventually_ge_atTop n] with k hk
  exact far n k hk a

end

/-! ## Programs that set one site at a time -/

/-- The grids `d` and `e` have the same values at all `N` nodes. -/
def Agree {V : Type} (N : Nat) (d e : Int → V) : Prop := ∀ n : Nat, n < N → d n = e n

/-- The run with these draws returns from both grids, with the same values at all nodes. -/
def Same {V D : Type} (N : Nat) (f : (Int → V) → D → Outcome (Int → V)) (draws : List D) (d e : Int → V) : Prop :=
  ∃ d' e', draws.foldlM f d = .ok d' ∧ draws.foldlM f e = .ok e' ∧ Agree N d' e'

/-- An attempt with draws `r` reads and writes nodes only, and, if `sure r`, sets node `site r` to `value r` whatever the grid. -/
structure Sets {V D : Type} (N : Nat) (f : (Int → V) → D → Outcome (Int → V)) (site : D → Nat) (value : D → V) (sure : D → Prop) : Prop where
  agree : ∀ d e r, Agree N d e → ∃ d' e', f d r = .ok d' ∧ f e r = .ok e' ∧ Agree N d' e'
  sets : ∀ d r, sure r → f d r = .ok (Function.update d (site r : Int) (value r))

section
variable {V D : Type} [Fintype D] [Nonempty D] {N : Nat} {f : (Int → V) → D → Outcome (Int → V)} {site : D → Nat} {value : D → V} {sure : D → Prop}

omit [Fintype D] [Nonempty D] in
/-- After sure attempts at all sites in turn the grid is what was drawn. -/
theorem block {step : (Int → V) → D → Int → V} (hstep : ∀ d r, sure r → step d r = Function.update d (site r : Int) (value r)) (rs : Fin N → D)
    (h : ∀ i, site (rs i) = i.1 ∧ sure (rs i)) (d : Int → V) (n : Fin N) : (List.ofFn rs).foldl step d n.1 = value (rs n) := by
  induction N with
  | zero => exact n.elim0
  | succ N ih =>
    rw [List.ofFn_succ', List.concat_eq_append, List.foldl_append, List.foldl_cons, List.foldl_nil, hstep _ _ (h _).2, (h _).1]
    refine Fin.lastCases ?_ (fun i => ?_) n
    · rw [Fin.val_last, Function.update_self]
    · rw [Function.update_of_ne (by simp; omega)]
      exact ih (fun i => rs i.castSucc) (fun i => h i.castSucc) i

omit [Fintype D] [Nonempty D] in
theorem total (h : Sets N f site value sure) : ∃ step : (Int → V) → D → Int → V, (∀ d r, f d r = .ok (step d r)) ∧ (∀ d e r, Agree N d e → Agree N (step d r) (step e r)) ∧
    ∀ d r, sure r → step d r = Function.update d (site r : Int) (value r) := by
  have h1 : ∀ d r, ∃ d', f d r = .ok d' := fun d r => by
    obtain ⟨d', -, e, -⟩ := h.agree d d r fun _ _ => rfl
    exact ⟨d', e⟩
  choose step hs using h1
  refine ⟨step, hs, fun d e r ha => ?_, fun d r hr => ?_⟩
  · obtain ⟨d', e', h1, h2, h3⟩ := h.agree d e r ha
    rw [hs] at h1 h2
    cases h1; cases h2
    exact h3
  · have := h.sets d r hr
    rw [hs] at this
    exact Outcome.ok.inj this

/-- With the same draws, runs from any two grids agree after `n` attempts but for a share `(1-ε^N)^(n/N)` of the draws, if each site has a sure attempt with probability `ε`. -/
theorem meet (h : Sets N f site value sure) (hN : 0 < N) {ε : ℝ} (h0 : 0 ≤ ε) (hε : ∀ i < N, ε ≤ share fun r => site r = i ∧ sure r) (n : Nat) (d e : Int → V) :
    share (fun rs : Fin n → D => ¬ Same N f (List.ofFn rs) d e) ≤ (1 - ε ^ N) ^ (n / N) := by
  obtain ⟨step, h1, h2, h3⟩ := total h
  have hf := fold_array (f := f) (code := id) (step := step) h1
  refine le_trans (share_mono fun rs hrs hn => hrs ⟨_, _, hf _ _, hf _ _, hn⟩) (apart (G := fun rs : Fin N → D => ∀ i, site (rs i) = i.1 ∧ sure (rs i)) hN h2 ?_ ?_ n d e)
  · intro rs hrs a b m hm
    rw [block h3 rs hrs a ⟨m, hm⟩, block h3 rs hrs b ⟨m, hm⟩]
  · rw [share_all fun (i : Fin N) (r : D) => site r = i.1 ∧ sure r]
    calc ε ^ N = ∏ _i : Fin N, ε := by simp
      _ ≤ _ := Finset.prod_le_prod (fun _ _ => h0) fun i _ => hε i i.2

/-- And the probability of every event has a limit that does not depend on the grid. -/
theorem settles (h : Sets N f site value sure) (hN : 0 < N) {ε : ℝ} (h0 : 0 < ε) (hε : ∀ i < N, ε ≤ share fun r => site r = i ∧ sure r) {Q : (Int → V) → Prop}
    (hQ : ∀ d e, Agree N d e → Q d → Q e) :
    ∃ L : ℝ, 0 ≤ L ∧ L ≤ 1 ∧ ∀ n d, |share (fun rs : Fin n → D => ∃ d', (List.ofFn rs).foldlM f d = .ok d' ∧ Q d') - L| ≤ (1 - ε ^ N) ^ (n / N) := by
  obtain ⟨step, h1, h2, h3⟩ := total h
  have hf := fold_array (f := f) (code := id) (step := step) h1
  have hG : ε ^ N ≤ share fun rs : Fin N → D => ∀ i, site (rs i) = i.1 ∧ sure (rs i) := by
    rw [share_all fun (i : Fin N) (r : D) => site r = i.1 ∧ sure r]
    calc ε ^ N = ∏ _i : Fin N, ε := by simp
      _ ≤ _ := Finset.prod_le_prod (fun _ _ => h0.le) fun i _ => hε i i.2
  have hG1 : ε ^ N ≤ 1 := hG.trans ((share_mono fun _ _ => trivial).trans share_true.le)
  have : Nonempty (Int → V) := ⟨fun _ => value (Classical.arbitrary D)⟩
  have key := limit (step := step) (R := Agree N) (Q := Q) (δ := fun n => (1 - ε ^ N) ^ (n / N))
    (fun n a b => apart (G := fun rs : Fin N → D => ∀ i, site (rs i) = i.1 ∧ sure (rs i)) hN h2 (fun rs hrs a b m hm => by
      rw [block h3 rs hrs a ⟨m, hm⟩, block h3 rs hrs b ⟨m, hm⟩]) hG n a b)
    ((tendsto_pow_atTop_nhds_zero_of_lt_one (by linarith) (by linarith [pow_pos h0 N])).comp (Nat.tendsto_div_const_atTop hN.ne')) hQ
  obtain ⟨L, l0, l1, hL⟩ := key
  refine ⟨L, l0, l1, fun n d => ?_⟩
  rw [share_congr (q := fun rs : Fin n → D => Q ((List.ofFn rs).foldl step d)) fun rs => ?_]
  · exact hL n d
  · rw [show (List.ofFn rs).foldlM f d = .ok ((List.ofFn rs).foldl step d) from hf _ _]
    exact ⟨fun ⟨d', e, hq⟩ => (Outcome.ok.inj e) ▸ hq, fun hq => ⟨_, rfl, hq⟩⟩

end

/-! ## How often a site has a sure attempt -/

/-- `rand()%N` is `i` for at least `(RAND_MAX+1)/N` of the numbers that `rand()` can return. -/
theorem share_site {M N i : Nat} (hi : i < N) : (((M + 1) / N : Nat) : ℝ) / (M + 1) ≤ share fun p : Fin (M + 1) => p.1 % N = i := by
  classical
  have e : share (fun p : Fin (M + 1) => p.1 % N = i) = ((Finset.univ.filter fun p : Fin (M + 1) => p.1 % N = i).card : ℝ) / (M + 1) := by
    unfold share; rw [Fintype.card_fin]; push_cast; congr!
  rw [e]
  refine div_le_div_of_nonneg_right ?_ (by positivity)
  have hlt : ∀ j, j < (M + 1) / N → j * N + i < M + 1 := fun j hj => by
    have h1 : (j + 1) * N ≤ (M + 1) / N * N := Nat.mul_le_mul_right _ hj
    have h2 := Nat.div_mul_le_self (M + 1) N
    rw [Nat.add_mul, Nat.one_mul] at h1
    omega
  have : ((M + 1) / N) ≤ (Finset.univ.filter fun p : Fin (M + 1) => p.1 % N = i).card := by
    rw [← Fintype.card_fin ((M + 1) / N), ← Finset.card_univ]
    refine Finset.card_le_card_of_injOn (fun j => ⟨j.1 * N + i, hlt j.1 j.2⟩) (fun j _ => ?_) (fun j _ k _ h => ?_)
    · simp [Nat.mod_eq_of_lt hi]
    · have := congrArg Fin.val h
      simp only at this
      exact Fin.ext (Nat.eq_of_mul_eq_mul_right (by omega) (Nat.add_right_cancel this))
  exact_mod_cast this

theorem share_zero (M : Nat) : share (fun k : Fin (M + 1) => k.1 = 0) = 1 / (M + 1) := by
  rw [share_eq, Finset.sum_eq_single 0]
  · rw [ind_pos (Fin.val_zero _), Fintype.card_fin]; push_cast; rfl
  · intro k _ hk; exact ind_neg fun h => hk (Fin.ext h)
  · intro h; exact absurd (Finset.mem_univ _) h

/-- Probability that an attempt is at a given site of `N` and draws 0 for the acceptance. -/
noncomputable def chance (M N : Nat) : ℝ := (((M + 1) / N : Nat) : ℝ) / (M + 1) ^ 2

theorem chance_nonneg (M N : Nat) : 0 ≤ chance M N := by unfold chance; positivity

theorem chance_pos {M N : Nat} (h0 : 0 < N) (h : N ≤ M + 1) : 0 < chance M N := by
  have : 0 < (M + 1) / N := Nat.div_pos h h0
  unfold chance
  positivity

/-! ## Potts -/

/-- The numbers drawn by one attempt of the Potts example. -/
abbrev PottsDraw (M : Nat) := Fin (M + 1) × Fin (M + 1) × Fin (M + 1)

/-- One attempt of the Potts example, `potts.cpp` 67-123, for numbers up to `RAND_MAX`. -/
def pottsTry (g : Shape) (hot : ℚ → Nat → Bool) {M : Nat} (d : Int → Int) (r : PottsDraw M) : Outcome (Int → Int) := pottsFlip .serial g hot d (r.1.1, r.2.1.1, r.2.2.1)

theorem agree_nbr {V : Type} {g : Shape} (ht : Torus g) {d e : Int → V} (h : Agree g.nodes.toNat d e) {axes : List Nat} (hn : axes.Nodup) {m : Nat} (hm : m < g.nodes.toNat) {o : Nat → Int}
    (ho : o ∈ offsets axes) : d (nbr g o m) = e (nbr g o m) := by
  obtain ⟨a, b, -⟩ := nbr_spec ht ((mem_offsets hn).1 ho).1 (n := (m : Int)) (by omega) (by omega)
  have := h (nbr g o m).toNat (by omega)
  rwa [Int.toNat_of_nonneg a] at this

theorem agree_update {V : Type} {N : Nat} {d e : Int → V} (h : Agree N d e) (m : Nat) (v : V) : Agree N (Function.update d (m : Int) v) (Function.update e (m : Int) v) := by
  intro n hn
  by_cases hm : (n : Int) = m
  · rw [hm, Function.update_self, Function.update_self]
  · rw [Function.update_of_ne hm, Function.update_of_ne hm, h n hn]

theorem potts_sum {g : Shape} (ht : Torus g) {d e : Int → Int} (h : Agree g.nodes.toNat d e) {m : Nat} (hm : m < g.nodes.toNat) (v : Int) :
    ∃ s, pottsSum .serial g d (g.position m) (d m) v = .ok s ∧ pottsSum .serial g e (g.position m) (e m) v = .ok s := by
  have key : ∀ {axes : List Nat}, axes.Nodup → ∃ s, energySum .serial g d axes (g.position m) (d m) v = .ok s ∧ energySum .serial g e axes (g.position m) (e m) v = .ok s := by
    intro axes hn
    refine ⟨_, boxSum_eq ht hn d (change (d m) v) (n := (m : Int)) (by omega) (by omega) (-1), ?_⟩
    refine (boxSum_eq ht hn e (change (e m) v) (n := (m : Int)) (by omega) (by omega) (-1)).trans ?_
    rw [h m hm, List.map_congr_left fun o ho => by rw [← agree_nbr ht h hn hm ho]]
  unfold pottsSum
  split_ifs
  · exact key (by decide)
  · exact key (by decide)
  · exact ⟨_, rfl, rfl⟩

theorem potts_sets {g : Shape} (ht : Torus g) {hot : ℚ → Nat → Bool} (hhot : ∀ dE, hot dE 0 = true) (M : Nat) :
    Sets g.nodes.toNat (pottsTry g hot (M := M)) (fun r => r.1.1 % g.nodes.toNat) (fun r => ((r.2.1.1 % 20 : Nat) : Int)) (fun r => r.2.2.1 = 0) := by
  have hpos := nodes_pos ht
  constructor
  · intro d e r h
    obtain ⟨s, h1, h2⟩ := potts_sum ht h (Nat.mod_lt r.1.1 hpos) ((r.2.1.1 % 20 : Nat) : Int)
    refine ⟨_, _, pottsFlip_eq ht hot d (r.1.1, r.2.1.1, r.2.2.1) rfl h1, pottsFlip_eq ht hot e (r.1.1, r.2.1.1, r.2.2.1) rfl h2, ?_⟩
    split_ifs
    · exact agree_update h _ _
    · exact h
  · intro d r hr
    obtain ⟨s, h1, -⟩ := potts_sum ht (d := d) (e := d) (fun _ _ => rfl) (Nat.mod_lt r.1.1 hpos) ((r.2.1.1 % 20 : Nat) : Int)
    refine (pottsFlip_eq ht hot d (r.1.1, r.2.1.1, r.2.2.1) rfl h1).trans ?_
    rw [if_pos (Or.inr (by simp only [hr]; exact hhot _))]

theorem potts_chance (M : Nat) {N i : Nat} (hi : i < N) : chance M N ≤ share fun r : PottsDraw M => r.1.1 % N = i ∧ r.2.2.1 = 0 := by
  have e : share (fun r : PottsDraw M => r.1.1 % N = i ∧ r.2.2.1 = 0) = share (fun p : Fin (M + 1) => p.1 % N = i) * (1 / (M + 1)) := by
    rw [share_prod (fun p : Fin (M + 1) => p.1 % N = i) (fun z : Fin (M + 1) × Fin (M + 1) => z.2.1 = 0)]
    congr 1
    have := share_prod (fun _ : Fin (M + 1) => True) (fun k : Fin (M + 1) => k.1 = 0)
    rw [share_true, share_zero, one_mul] at this
    rw [← this]
    exact share_congr fun x => ⟨fun h => ⟨trivial, h⟩, fun h => h.2⟩
  rw [e]
  refine le_trans (le_of_eq ?_) (mul_le_mul_of_nonneg_right (share_site hi) (by positivity))
  unfold chance
  field_simp

/-! ## Heisenberg -/

/-- The numbers drawn by one attempt of the Heisenberg example. -/
abbrev HeisDraw (M : Nat) := Fin (M + 1) × Fin (M + 1) × Fin (M + 1) × Fin (M + 1)

section
variable {α : Type} [Field α] [LinearOrder α]

/-- One attempt of the Heisenberg example, `heisenberg.cpp` 82-143, for numbers up to `RAND_MAX`. -/
def heisTry (g : Shape) (dir : Nat → Nat → Dir α) (hot : α → Nat → Bool) {M : Nat} (d : Int → Dir α) (r : HeisDraw M) : Outcome (Int → Dir α) :=
  heisenbergFlip .serial g dir hot d (r.1.1, r.2.1.1, r.2.2.1.1, r.2.2.2.1)

theorem heis_at {g : Shape} (ht : Torus g) (dir : Nat → Nat → Dir α) (hot : α → Nat → Bool) (d : Int → Dir α) (r : Nat × Nat × Nat × Nat) {m : Nat} (hm : m = r.1 % g.nodes.toNat) {s : α}
    (hs : turnSum .serial g d (List.range g.dim) (g.position m) (d m) (dir r.2.1 r.2.2.1) = .ok s) :
    heisenbergFlip .serial g dir hot d r = .ok (if -1 * s ≤ 0 ∨ hot (-1 * s) r.2.2.2 = true then Function.update d (m : Int) (dir r.2.1 r.2.2.1) else d) := by
  have hpos := nodes_pos ht
  have hc := cell_ok ht (hm ▸ Nat.mod_lt r.1 hpos)
  unfold heisenbergFlip
  rw [if_neg (by omega), ← hm]
  have hd : deref g d (g.atNode .serial (m : Int)) = .ok (d m) := if_pos hc
  have hst : ∀ v, store g d (g.atNode .serial (m : Int)) v = .ok (Function.update d (m : Int) v) := fun v => if_pos hc
  dsimp only
  rw [hd, Outcome.ok_bind, hs, Outcome.ok_bind, hst]
  exact metropolis _ _ _ _

omit [LinearOrder α] in
theorem heis_sum {g : Shape} (ht : Torus g) {d e : Int → Dir α} (h : Agree g.nodes.toNat d e) {m : Nat} (hm : m < g.nodes.toNat) (v : Dir α) :
    ∃ s, turnSum .serial g d (List.range g.dim) (g.position m) (d m) v = .ok s ∧ turnSum .serial g e (List.range g.dim) (g.position m) (e m) v = .ok s := by
  have hn : (List.range g.dim).Nodup := List.nodup_range
  refine ⟨_, boxSum_eq ht hn d (Spin.turn (d m) v) (n := (m : Int)) (by omega) (by omega) (-1), ?_⟩
  refine (boxSum_eq ht hn e (Spin.turn (e m) v) (n := (m : Int)) (by omega) (by omega) (-1)).trans ?_
  rw [h m hm, List.map_congr_left fun o ho => by rw [← agree_nbr ht h hn hm ho]]

theorem heis_sets {g : Shape} (ht : Torus g) (dir : Nat → Nat → Dir α) {hot : α → Nat → Bool} (hhot : ∀ dE, hot dE 0 = true) (M : Nat) :
    Sets g.nodes.toNat (heisTry g dir hot (M := M)) (fun r => r.1.1 % g.nodes.toNat) (fun r => dir r.2.1.1 r.2.2.1.1) (fun r => r.2.2.2.1 = 0) := by
  have hpos := nodes_pos ht
  constructor
  · intro d e r h
    obtain ⟨s, h1, h2⟩ := heis_sum ht h (Nat.mod_lt r.1.1 hpos) (dir r.2.1.1 r.2.2.1.1)
    refine ⟨_, _, heis_at ht dir hot d (r.1.1, r.2.1.1, r.2.2.1.1, r.2.2.2.1) rfl h1, heis_at ht dir hot e (r.1.1, r.2.1.1, r.2.2.1.1, r.2.2.2.1) rfl h2, ?_⟩
    split_ifs
    · exact agree_update h _ _
    · exact h
  · intro d r hr
    obtain ⟨s, h1, -⟩ := heis_sum ht (d := d) (e := d) (fun _ _ => rfl) (Nat.mod_lt r.1.1 hpos) (dir r.2.1.1 r.2.2.1.1)
    refine (heis_at ht dir hot d (r.1.1, r.2.1.1, r.2.2.1.1, r.2.2.2.1) rfl h1).trans ?_
    rw [if_pos (Or.inr (by simp only [hr]; exact hhot _))]

end

theorem heis_chance (M : Nat) {N i : Nat} (hi : i < N) : chance M N ≤ share fun r : HeisDraw M => r.1.1 % N = i ∧ r.2.2.2.1 = 0 := by
  have e1 : share (fun z : Fin (M + 1) × Fin (M + 1) => z.2.1 = 0) = 1 / (M + 1) := by
    have := share_prod (fun _ : Fin (M + 1) => True) (fun k : Fin (M + 1) => k.1 = 0)
    rw [share_true, share_zero, one_mul] at this
    rw [← this]
    exact share_congr fun x => ⟨fun h => ⟨trivial, h⟩, fun h => h.2⟩
  have e : share (fun r : HeisDraw M => r.1.1 % N = i ∧ r.2.2.2.1 = 0) = share (fun p : Fin (M + 1) => p.1 % N = i) * (1 / (M + 1)) := by
    rw [share_prod (fun p : Fin (M + 1) => p.1 % N = i) (fun z : Fin (M + 1) × Fin (M + 1) × Fin (M + 1) => z.2.2.1 = 0)]
    congr 1
    have := share_prod (fun _ : Fin (M + 1) => True) (fun z : Fin (M + 1) × Fin (M + 1) => z.2.1 = 0)
    rw [share_true, e1, one_mul] at this
    rw [← this]
    exact share_congr fun x => ⟨fun h => ⟨trivial, h⟩, fun h => h.2⟩
  rw [e]
  refine le_trans (le_of_eq ?_) (mul_le_mul_of_nonneg_right (share_site hi) (by positivity))
  unfold chance
  field_simp

/-- `r<exp(-dE/kT)` with `r = double(rand())/double(RAND_MAX)` read as real numbers, `heisenberg.cpp` 135-138. -/
noncomputable def warm (M : Nat) (kT : ℝ) (dE : ℝ) (k : Nat) : Bool := by
  classical exact decide ((k : ℝ) / M < Real.exp (-dE / kT))

theorem warm_zero (M : Nat) (kT dE : ℝ) : warm M kT dE 0 = true := by
  unfold warm
  rw [@decide_eq_true_iff _ (Classical.propDecidable _), Nat.cast_zero, zero_div]
  exact Real.exp_pos _

theorem hot_zero (M : Nat) (kT : ℝ) (dE : ℚ) : hot M kT dE 0 = true := by
  unfold hot
  rw [decide_eq_true_iff, Nat.cast_zero, zero_div]
  exact Real.exp_pos _

/-! ## The claims -/

/-- **C128.** Heisenberg: two runs of `n` attempts that draw the same numbers, from any two grids, end with the same directions at all nodes, except for a share of the draws that
goes to zero. -/
theorem heisenberg_meets {g : Shape} (ht : Torus g) (M : Nat) (kT : ℝ) (n : Nat) (d e : Int → Dir ℝ) :
    share (fun rs : Fin n → HeisDraw M => ¬ Same g.nodes.toNat (heisTry g (drawn M) (warm M kT)) (List.ofFn rs) d e) ≤ (1 - chance M g.nodes.toNat ^ g.nodes.toNat) ^ (n / g.nodes.toNat) :=
  meet (heis_sets ht (drawn M) (warm_zero M kT) M) (nodes_pos ht) (chance_nonneg _ _) (fun _ hi => heis_chance M hi) n d e

/-- **C128.** So the probability of every event converges with the number of attempts, to a limit that does not depend on the initial grid, although (C94) the example has no energy. -/
theorem heisenberg_settles {g : Shape} (ht : Torus g) {M : Nat} (hM : g.nodes.toNat ≤ M + 1) (kT : ℝ) {Q : (Int → Dir ℝ) → Prop} (hQ : ∀ d e, Agree g.nodes.toNat d e → Q d → Q e) :
    ∃ L : ℝ, 0 ≤ L ∧ L ≤ 1 ∧ ∀ n d, |share (fun rs : Fin n → HeisDraw M => ∃ d', (List.ofFn rs).foldlM (heisTry g (drawn M) (warm M kT)) d = .ok d' ∧ Q d') - L| ≤
      (1 - chance M g.nodes.toNat ^ g.nodes.toNat) ^ (n / g.nodes.toNat) :=
  settles (heis_sets ht (drawn M) (warm_zero M kT) M) (nodes_pos ht) (chance_pos (nodes_pos ht) hM) (fun _ hi => heis_chance M hi) hQ

/-- **C128.** Potts: the same. -/
theorem potts_meets {g : Shape} (ht : Torus g) (M : Nat) (kT : ℝ) (n : Nat) (d e : Int → Int) :
    share (fun rs : Fin n → PottsDraw M => ¬ Same g.nodes.toNat (pottsTry g (hot M kT)) (List.ofFn rs) d e) ≤ (1 - chance M g.nodes.toNat ^ g.nodes.toNat) ^ (n / g.nodes.toNat) :=
  meet (potts_sets ht (hot_zero M kT) M) (nodes_pos ht) (chance_nonneg _ _) (fun _ hi => potts_chance M hi) n d e

theorem potts_settles {g : Shape} (ht : Torus g) {M : Nat} (hM : g.nodes.toNat ≤ M + 1) (kT : ℝ) {Q : (Int → Int) → Prop} (hQ : ∀ d e, Agree g.nodes.toNat d e → Q d → Q e) :
    ∃ L : ℝ, 0 ≤ L ∧ L ≤ 1 ∧ ∀ n d, |share (fun rs : Fin n → PottsDraw M => ∃ d', (List.ofFn rs).foldlM (pottsTry g (hot M kT)) d = .ok d' ∧ Q d') - L| ≤
      (1 - chance M g.nodes.toNat ^ g.nodes.toNat) ^ (n / g.nodes.toNat) :=
  settles (potts_sets ht (hot_zero M kT) M) (nodes_pos ht) (chance_pos (nodes_pos ht) hM) (fun _ hi => potts_chance M hi) hQ

/-- The hypotheses are met by the grid of the examples, with an event on a site. -/
example : Torus (square 256) ∧ (square 256).nodes.toNat ≤ 2147483647 + 1 ∧ ∀ d e : Int → Dir ℝ, Agree (square 256).nodes.toNat d e → 0 < d 7 2 → 0 < e 7 2 :=
  ⟨square_torus (by decide), by decide +kernel, fun d e h hd => by
    have := h 7 (by decide +kernel)
    rw [← show d 7 = e 7 by exact_mod_cast this]
    exact hd⟩

end MMSP.Coalesce
