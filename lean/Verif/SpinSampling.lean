import Verif.SpinProps
import Verif.Sampling
/-!
# The spin examples sample Gibbs distributions

The runs of the Ising and Potts examples (`Verif/Spin.lean`) as random walks, the numbers returned by `rand()` being independent and uniform on `0..RAND_MAX`. The energies are
those of `Verif/SpinProps.lean`: what the examples take for the energy (C52).
-/

namespace MMSP.SpinSampling

open Finset MMSP.Spin MMSP.Sampling

/-- The test `r<exp(-dE/kT)` with `r = double(rand())/double(RAND_MAX)`: `ising.cpp` 114-118, `potts.cpp` 115-119. -/
noncomputable def hot (M : Nat) (kT : ℝ) (dE : ℚ) (k : Nat) : Bool := by
  classical exact decide ((k : ℝ) / M < Real.exp (-(dE : ℝ) / kT))

theorem hot_iff {M : Nat} {kT : ℝ} {dE : ℚ} {k : Nat} : dE ≤ 0 ∨ hot M kT dE k = true ↔ Accepts M kT (dE : ℝ) k := by
  unfold hot Accepts
  rw [decide_eq_true_iff, show ((dE : ℝ) ≤ 0) = (dE ≤ 0) from propext (by exact_mod_cast Iff.rfl)]

section
variable {V : Type} (val : V → Int) {N : Nat}

/-- The array that holds a configuration. -/
def array (σ : Fin N → V) (p : Int) : Int := if h : 0 ≤ p ∧ p.toNat < N then val (σ ⟨p.toNat, h.2⟩) else 0

theorem array_at (σ : Fin N → V) (m : Fin N) : array val σ ((m : Nat) : Int) = val (σ m) := by
  unfold array
  rw [dif_pos ⟨Int.natCast_nonneg _, by rw [Int.toNat_natCast]; exact m.2⟩]
  congr 2

theorem array_update [DecidableEq V] (σ : Fin N → V) (m : Fin N) (v : V) : Function.update (array val σ) ((m : Nat) : Int) (val v) = array val (Function.update σ m v) := by
  funext p
  by_cases h : p = ((m : Nat) : Int)
  · rw [h, Function.update_self, array_at, Function.update_self]
  · rw [Function.update_of_ne h]
    unfold array
    by_cases hp : 0 ≤ p ∧ p.toNat < N
    · rw [dif_pos hp, dif_pos hp, Function.update_of_ne]
      intro e
      exact h (by rw [← e]; simp [hp.1])
    · rw [dif_neg hp, dif_neg hp]

theorem array_inj {val : V → Int} (hv : Function.Injective val) {σ τ : Fin N → V} (h : array val σ = array val τ) : σ = τ := by
  funext m
  apply hv
  rw [← array_at val σ m, ← array_at val τ m, h]

end

/-- A fold whose steps have results in a set of states stays there. -/
theorem fold_array {Ω D A : Type} {f : A → D → Outcome A} {code : Ω → A} {step : Ω → D → Ω} (h : ∀ a r, f (code a) r = .ok (code (step a r))) (l : List D) (a : Ω) :
    l.foldlM f (code a) = .ok (code (l.foldl step a)) := by
  induction l generalizing a with
  | nil => rfl
  | cons r l ih => rw [List.foldlM_cons, h a r, Outcome.bind_eq, Outcome.ok_bind, List.foldl_cons]; exact ih _

/-- Everything can be reached if every single site can be given every value. -/
theorem connected {V D : Type} {N : Nat} [Fintype V] [DecidableEq V] [Fintype D] [Nonempty D] {step : (Fin N → V) → D → Fin N → V}
    (h : ∀ σ m v, ∃ n, 0 < walk step n σ (Function.update σ m v)) (σ τ : Fin N → V) : ∃ n, 0 < walk step n σ τ := by
  classical
  have key : ∀ s : Finset (Fin N), ∃ n, 0 < walk step n σ (fun m => if m ∈ s then τ m else σ m) := by
    intro s
    induction s using Finset.induction with
    | empty => exact ⟨0, by rw [walk_zero, ind_pos (by simp)]; exact one_pos⟩
    | insert m s hm ih =>
      obtain ⟨n, hn⟩ := ih
      obtain ⟨n', hn'⟩ := h (fun m => if m ∈ s then τ m else σ m) m (τ m)
      refine ⟨n + n', walk_trans step hn ?_⟩
      rw [show (fun i => if i ∈ insert m s then τ i else σ i) = Function.update (fun i => if i ∈ s then τ i else σ i) m (τ m) from ?_]
      · exact hn'
      · funext i
        by_cases e : i = m
        · rw [e, Function.update_self, if_pos (Finset.mem_insert_self _ _)]
        · rw [Function.update_of_ne e]; simp [e]
  obtain ⟨n, hn⟩ := key Finset.univ
  exact ⟨n, by simpa using hn⟩

/-! ## Ising -/

/-- Spin up and spin down. -/
def spin (b : Bool) : Int := if b then 1 else -1

theorem spin_inj : Function.Injective spin := by decide

theorem spin_not (b : Bool) : spin (!b) = -spin b := by cases b <;> rfl

section
variable {g : Shape}

/-- The numbers drawn by `n` attempted flips. -/
def isingDraws {M n : Nat} (rs : Fin n → Fin (M + 1) × Fin (M + 1)) : List (Nat × Nat) := List.ofFn fun i => ((rs i).1.1, (rs i).2.1)

/-- Probability that `n` attempted flips of the Ising example lead from configuration `σ` to configuration `τ`: the share of the sequences of draws for which the program ends
with `τ`. -/
noncomputable def isingChance (g : Shape) (M : Nat) (kT : ℝ) (n : Nat) (σ τ : Fin g.nodes.toNat → Bool) : ℝ :=
  share fun rs : Fin n → Fin (M + 1) × Fin (M + 1) => isingRun .serial g (hot M kT) (isingDraws rs) (array spin σ) = .ok (array spin τ)

/-- Energy of a configuration as the Ising example takes it (C52, `ising_energy`): -1 for every pair of unlike neighbours, -1 for every spin up, +1 for every spin down. -/
noncomputable def isingE (g : Shape) (σ : Fin g.nodes.toNat → Bool) : ℝ := (isingTotal g (-1) (array spin σ) : ℚ)

/-- What a number drawn proposes. -/
def isingMove (M : Nat) (hpos : 0 < g.nodes.toNat) (σ : Fin g.nodes.toNat → Bool) (p : Fin (M + 1)) : Fin g.nodes.toNat → Bool :=
  let m : Fin g.nodes.toNat := ⟨p.1 % g.nodes.toNat, Nat.mod_lt _ hpos⟩
  Function.update σ m (!σ m)

open Classical in
noncomputable def isingStep (M : Nat) (kT : ℝ) (hpos : 0 < g.nodes.toNat) (σ : Fin g.nodes.toNat → Bool) (r : Fin (M + 1) × Fin (M + 1)) : Fin g.nodes.toNat → Bool :=
  if Accepts M kT (isingE g (isingMove M hpos σ r.1) - isingE g σ) r.2 then isingMove M hpos σ r.1 else σ

theorem isingStep_follows (M : Nat) (kT : ℝ) (hpos : 0 < g.nodes.toNat) : Follows M kT (isingE g) (isingMove M hpos) (isingStep M kT hpos) :=
  fun _ _ _ => ⟨fun h => if_pos h, fun h => if_neg h⟩

variable (ht : Torus g) (hside : ∀ j < g.dim, 2 ≤ g.x1 j - g.x0 j)
include ht hside

omit hside in
theorem isingFlip_at (hot : ℚ → Nat → Bool) (d : Int → Int) (r : Nat × Nat) :
    ∃ s, energySum .serial g d (List.range g.dim) (g.position (r.1 % g.nodes.toNat : Nat)) (d (r.1 % g.nodes.toNat : Nat)) (-d (r.1 % g.nodes.toNat : Nat)) = .ok s ∧
      isingFlip .serial g hot d r = .ok (if isingEnergy s (d (r.1 % g.nodes.toNat : Nat)) (-d (r.1 % g.nodes.toNat : Nat)) ≤ 0 ∨
        hot (isingEnergy s (d (r.1 % g.nodes.toNat : Nat)) (-d (r.1 % g.nodes.toNat : Nat))) r.2 = true
        then Function.update d ((r.1 % g.nodes.toNat : Nat) : Int) (-d (r.1 % g.nodes.toNat : Nat)) else d) := by
  have hpos := nodes_pos ht
  have hm := Nat.mod_lt r.1 hpos
  refine ⟨_, boxSum_eq ht List.nodup_range d (change (d _) (-d _)) (by omega) (by omega) (-1), ?_⟩
  unfold isingFlip
  rw [if_neg (by omega)]
  have hc := cell_ok ht hm
  have hd : deref g d (g.atNode .serial (r.1 % g.nodes.toNat : Nat)) = .ok (d (r.1 % g.nodes.toNat : Nat)) := if_pos hc
  have hst : ∀ v, store g d (g.atNode .serial (r.1 % g.nodes.toNat : Nat)) v = .ok (Function.update d ((r.1 % g.nodes.toNat : Nat) : Int) v) := fun v => if_pos hc
  dsimp only
  rw [hd, Outcome.ok_bind, energySum, boxSum_eq ht List.nodup_range d _ (by omega) (by omega) (-1), Outcome.ok_bind, hst]
  exact metropolis _ _ _ _

/-- The program makes the steps. -/
theorem isingFlip_step (M : Nat) (kT : ℝ) (σ : Fin g.nodes.toNat → Bool) (r : Fin (M + 1) × Fin (M + 1)) :
    isingFlip .serial g (hot M kT) (array spin σ) (r.1.1, r.2.1) = .ok (array spin (isingStep M kT (nodes_pos ht) σ r)) := by
  have hpos := nodes_pos ht
  obtain ⟨m, hm, s, e0, e⟩ : ∃ m : Fin g.nodes.toNat, m = ⟨r.1.1 % g.nodes.toNat, Nat.mod_lt _ hpos⟩ ∧ ∃ s,
      energySum .serial g (array spin σ) (List.range g.dim) (g.position ((m : Nat) : Int)) (array spin σ ((m : Nat) : Int)) (-array spin σ ((m : Nat) : Int)) = .ok s ∧
      isingFlip .serial g (hot M kT) (array spin σ) (r.1.1, r.2.1) =
        .ok (if isingEnergy s (array spin σ ((m : Nat) : Int)) (-array spin σ ((m : Nat) : Int)) ≤ 0 ∨ hot M kT (isingEnergy s (array spin σ ((m : Nat) : Int)) (-array spin σ ((m : Nat) : Int))) r.2.1 = true
          then Function.update (array spin σ) ((m : Nat) : Int) (-array spin σ ((m : Nat) : Int)) else array spin σ) :=
    ⟨_, rfl, isingFlip_at ht (hot M kT) (array spin σ) (r.1.1, r.2.1)⟩
  have hv : array spin σ ((m : Nat) : Int) = spin (σ m) := array_at spin σ m
  obtain ⟨s', e1, h1⟩ := ising_energy ht hside (array spin σ) m.2 (by rw [hv]; cases σ m <;> decide)
  have : s = s' := by rw [e0] at e1; injection e1
  subst this
  have hup : Function.update (array spin σ) ((m : Nat) : Int) (-array spin σ ((m : Nat) : Int)) = array spin (isingMove M hpos σ r.1) := by
    rw [hv, ← spin_not, array_update, hm]; rfl
  rw [e, h1, hup]
  have hd : ((isingTotal g (-1) (array spin (isingMove M hpos σ r.1)) - isingTotal g (-1) (array spin σ) : ℚ) : ℝ) = isingE g (isingMove M hpos σ r.1) - isingE g σ := by
    unfold isingE; push_cast; rfl
  by_cases hacc : Accepts M kT (isingE g (isingMove M hpos σ r.1) - isingE g σ) r.2
  · rw [if_pos (hot_iff.2 (by rw [hd]; exact hacc)), (isingStep_follows M kT hpos σ r.1 r.2).1 hacc]
  · rw [if_neg (fun h => hacc (by rw [← hd]; exact hot_iff.1 h)), (isingStep_follows M kT hpos σ r.1 r.2).2 hacc]

theorem isingChance_walk (M : Nat) (kT : ℝ) (n : Nat) (σ τ : Fin g.nodes.toNat → Bool) : isingChance g M kT n σ τ = walk (isingStep M kT (nodes_pos ht)) n σ τ := by
  unfold isingChance walk
  refine share_congr fun rs => ?_
  have h : isingRun .serial g (hot M kT) (isingDraws rs) (array spin σ) = .ok (array spin ((List.ofFn rs).foldl (isingStep M kT (nodes_pos ht)) σ)) := by
    rw [← fold_array (f := fun d (r : Fin (M + 1) × Fin (M + 1)) => isingFlip .serial g (hot M kT) d (r.1.1, r.2.1)) (isingFlip_step ht hside M kT)]
    unfold isingRun isingDraws
    rw [show (List.ofFn fun i => ((rs i).1.1, (rs i).2.1)) = (List.ofFn rs).map fun r => (r.1.1, r.2.1) by rw [List.map_ofFn]; rfl, List.foldlM_map]
  rw [h]
  constructor
  · intro e; injection e with e; exact array_inj spin_inj e
  · intro e; rw [e]

omit ht hside in
/-- Proposals are symmetric: the number that proposes a flip proposes to take it back. -/
theorem isingMove_symm (M : Nat) (hpos : 0 < g.nodes.toNat) (σ τ : Fin g.nodes.toNat → Bool) :
    share (fun p : Fin (M + 1) => isingMove M hpos σ p = τ) = share fun p => isingMove M hpos τ p = σ := by
  refine share_congr fun p => ?_
  constructor <;>
  · rintro rfl
    unfold isingMove
    simp

/-- **C94.** Every configuration becomes some configuration: the probabilities add up to one. -/
theorem ising_total (M : Nat) (kT : ℝ) (n : Nat) (σ : Fin g.nodes.toNat → Bool) : ∑ τ, isingChance g M kT n σ τ = 1 := by
  simp only [isingChance_walk ht hside]
  exact walk_total _ n σ

/-- **C94.** The Gibbs distribution is kept: a configuration drawn with probability proportional to `exp(-E/kT)` is, after `n` attempted flips, still so distributed up to
`2 n / (RAND_MAX+1)`, in total over all configurations. -/
theorem ising_gibbs {M : Nat} (hM : 0 < M) {kT : ℝ} (hT : 0 < kT) (n : Nat) :
    ∑ τ, |∑ σ, gibbs kT (isingE g) (fun _ => 1) σ * isingChance g M kT n σ τ - gibbs kT (isingE g) (fun _ => 1) τ| ≤ n * (2 / (M + 1)) := by
  simp only [isingChance_walk ht hside]
  exact stationary_run _ (gibbs_step (isingStep_follows M kT (nodes_pos ht)) hM hT (fun _ => one_pos) fun a b _ => by rw [isingMove_symm]) n

/-- **C94.** Detailed balance for one attempted flip: between two configurations as much flows one way as the other, up to the resolution of `rand()`. -/
theorem ising_balance {M : Nat} (hM : 0 < M) {kT : ℝ} (hT : 0 < kT) {σ τ : Fin g.nodes.toNat → Bool} (hne : σ ≠ τ) :
    |Real.exp (-isingE g σ / kT) * isingChance g M kT 1 σ τ - Real.exp (-isingE g τ / kT) * isingChance g M kT 1 τ σ| ≤
      (Real.exp (-isingE g σ / kT) + Real.exp (-isingE g τ / kT)) / (M + 1) := by
  have h := balance (isingStep_follows M kT (nodes_pos ht)) hM hT (q := fun _ => 1) (fun _ => zero_le_one) (fun a b _ => by rw [isingMove_symm]) hne
  simp only [isingChance_walk ht hside]
  simp only [one_mul] at h
  refine le_trans h (div_le_div_of_nonneg_right ?_ (by positivity))
  have h1 : ∀ a b, share (fun p : Fin (M + 1) => isingMove M (nodes_pos ht) a p = b) ≤ 1 := fun a b => by
    rw [← proposals_total (isingMove M (nodes_pos ht) a)]
    exact Finset.single_le_sum (f := fun b => share fun p => isingMove M (nodes_pos ht) a p = b) (fun _ _ => share_nonneg _) (Finset.mem_univ b)
  exact add_le_add (mul_le_of_le_one_right (Real.exp_pos _).le (h1 _ _)) (mul_le_of_le_one_right (Real.exp_pos _).le (h1 _ _))

omit hside in
/-- A site can be given either spin, whatever the energy: the number 0 is always accepted. -/
theorem ising_single {M : Nat} (hN : g.nodes.toNat ≤ M + 1) (kT : ℝ) (σ : Fin g.nodes.toNat → Bool) (m : Fin g.nodes.toNat) (v : Bool) :
    ∃ n, 0 < walk (isingStep M kT (nodes_pos ht)) n σ (Function.update σ m v) := by
  by_cases hv : v = σ m
  · exact ⟨0, by rw [walk_zero, ind_pos (by rw [hv, Function.update_eq_self])]; exact one_pos⟩
  · refine ⟨1, ?_⟩
    rw [walk_one]
    refine share_pos (x := (⟨m.1, by omega⟩, ⟨0, by omega⟩)) ?_
    have hmv : isingMove M (nodes_pos ht) σ ⟨m.1, by omega⟩ = Function.update σ m v := by
      have e : (⟨m.1 % g.nodes.toNat, Nat.mod_lt _ (nodes_pos ht)⟩ : Fin g.nodes.toNat) = m := Fin.ext (Nat.mod_eq_of_lt m.2)
      unfold isingMove
      dsimp only
      rw [e]
      congr 1
      revert hv; cases v <;> cases σ m <;> decide
    rw [(isingStep_follows M kT (nodes_pos ht) σ _ _).1 (Or.inr (by simp [Real.exp_pos])), hmv]

/-- Some flip raises the energy. -/
theorem ising_uphill : ∃ σ : Fin g.nodes.toNat → Bool, ∀ M, isingE g σ < isingE g (isingMove M (nodes_pos ht) σ ⟨0, by omega⟩) := by
  have hpos := nodes_pos ht
  let m : Fin g.nodes.toNat := ⟨0, hpos⟩
  let down : Fin g.nodes.toNat → Bool := fun _ => false
  refine ⟨Function.update down m true, fun M => ?_⟩
  have hmv : isingMove M hpos (Function.update down m true) ⟨0, by omega⟩ = down := by
    unfold isingMove
    have e : (⟨0 % g.nodes.toNat, Nat.mod_lt _ hpos⟩ : Fin g.nodes.toNat) = m := Fin.ext (Nat.zero_mod _)
    dsimp only
    rw [e, Function.update_self, Function.update_idem, Bool.not_true]
    exact Function.update_eq_self _ _
  rw [hmv]
  have hd : ∀ n : Nat, n < g.nodes.toNat → array spin down n = -1 := fun n hn => array_at spin down ⟨n, hn⟩
  obtain ⟨s, e, h⟩ := ising_energy ht hside (array spin down) m.2 (by rw [hd _ m.2]; decide)
  have hs : s = -1 + ((offsets (List.range g.dim)).map fun _ => (1 : Int)).sum := by
    rw [energySum, boxSum_eq ht List.nodup_range _ _ (by omega) (by omega) (-1)] at e
    injection e with e
    rw [← e]
    congr 2
    apply List.map_congr_left
    intro o ho
    obtain ⟨a, b, -⟩ := nbr_spec ht ((mem_offsets List.nodup_range).1 ho).1 (n := ((m : Nat) : Int)) (by omega) (by omega)
    have hn := hd (nbr g o ((m : Nat) : Int)).toNat (by omega)
    rw [Int.toNat_of_nonneg a] at hn
    rw [hn, hd _ m.2]; decide
  have hl := offsets_length ht
  have hs2 : 2 ≤ s := by
    rw [hs, List.map_const', List.sum_replicate]
    simp; omega
  have hup : Function.update (array spin down) ((m : Nat) : Int) (-array spin down ((m : Nat) : Int)) = array spin (Function.update down m true) := by
    rw [hd _ m.2]; exact array_update spin down m true
  rw [hup, hd _ m.2] at h
  unfold isingE
  have h2 : (2 : ℚ) ≤ s := by exact_mod_cast hs2
  unfold isingEnergy at h
  push_cast at h
  exact_mod_cast (by linarith : isingTotal g (-1) (array spin (Function.update down m true)) < isingTotal g (-1) (array spin down))

/-- **C94.** From any configuration the run approaches the Gibbs distribution: the difference, in total over all configurations, is a term that decays exponentially with the
number of attempted flips plus `2 n / (RAND_MAX+1)`. -/
theorem ising_samples {M : Nat} (hM : 0 < M) (hN : g.nodes.toNat ≤ M + 1) {kT : ℝ} (hT : 0 < kT) :
    ∃ (K : Nat) (ρ : ℝ), 0 < K ∧ 0 < ρ ∧ ρ < 1 ∧
      ∀ n σ, ∑ τ, |isingChance g M kT n σ τ - gibbs kT (isingE g) (fun _ => 1) τ| ≤ 2 * ρ ^ (n / K) + n * (2 / (M + 1)) := by
  simp only [isingChance_walk ht hside]
  have hpos := nodes_pos ht
  obtain ⟨z, hz⟩ := ising_uphill ht hside
  have hf := isingStep_follows (g := g) M kT hpos
  refine samples (z := z) _ (gibbs_nonneg fun _ => zero_le_one) (gibbs_total fun _ => one_pos)
    (gibbs_step hf hM hT (fun _ => one_pos) fun a b _ => by rw [isingMove_symm]) (connected (ising_single ht hN kT)) ?_
  rw [walk_one]
  refine share_pos (x := (⟨0, by omega⟩, ⟨M, by omega⟩)) ((hf z _ _).2 ?_)
  have hup := hz M
  rintro (h | h)
  · linarith
  · have hM' : (M : ℝ) ≠ 0 := by exact_mod_cast hM.ne'
    rw [div_self hM'] at h
    have : Real.exp (-(isingE g (isingMove M hpos z ⟨0, by omega⟩) - isingE g z) / kT) < 1 := by
      rw [← Real.exp_zero]; exact Real.exp_lt_exp.2 (div_neg_of_neg_of_pos (by linarith) hT)
    linarith

end

/-- The hypotheses are met, e.g. by the grids of the example. -/
example : Torus (square 256) ∧ (∀ j < (square 256).dim, 2 ≤ (square 256).x1 j - (square 256).x0 j) ∧ (square 256).nodes.toNat ≤ 2147483647 + 1 := by
  refine ⟨square_torus (by decide), fun j _ => (by decide : (2 : Int) ≤ 256 - 0), by decide +kernel⟩

/-! ## Potts -/

theorem share_prod {X Y : Type} [Fintype X] [Fintype Y] (p : X → Prop) (q : Y → Prop) : share (fun z : X × Y => p z.1 ∧ q z.2) = share p * share q := by
  simp only [share_eq]
  rw [Fintype.sum_prod_type, div_mul_div_comm, Finset.sum_mul_sum, Fintype.card_prod]
  push_cast
  congr 1
  refine Finset.sum_congr rfl fun x _ => Finset.sum_congr rfl fun y _ => ?_
  by_cases hp : p x
  · by_cases hq : q y
    · rw [ind_pos hp, ind_pos hq, ind_pos ⟨hp, hq⟩, one_mul]
    · rw [ind_neg hq, ind_neg fun h => hq h.2, mul_zero]
  · rw [ind_neg hp, ind_neg fun h => hp h.1, zero_mul]

/-- The spins 0..19. -/
def colour (v : Fin 20) : Int := (v.1 : Int)

theorem colour_inj : Function.Injective colour := fun a b h => Fin.ext (by unfold colour at h; omega)

/-- The axes whose neighbours the Potts example looks at (C52): the first one in two dimensions, all in three, none in one. -/
def pottsAxes (g : Shape) : List Nat := if g.dim = 2 then [0] else if g.dim = 3 then [0, 1, 2] else []

section
variable {g : Shape}

/-- The numbers drawn by `n` attempted changes. -/
def pottsDraws {M n : Nat} (rs : Fin n → (Fin (M + 1) × Fin (M + 1)) × Fin (M + 1)) : List (Nat × Nat × Nat) := List.ofFn fun i => ((rs i).1.1.1, (rs i).1.2.1, (rs i).2.1)

/-- Probability that `n` attempted changes of the Potts example lead from `σ` to `τ`. -/
noncomputable def pottsChance (g : Shape) (M : Nat) (kT : ℝ) (n : Nat) (σ τ : Fin g.nodes.toNat → Fin 20) : ℝ :=
  share fun rs : Fin n → (Fin (M + 1) × Fin (M + 1)) × Fin (M + 1) => pottsRun .serial g (hot M kT) (pottsDraws rs) (array colour σ) = .ok (array colour τ)

/-- Energy of a configuration as the Potts example takes it: the number of pairs of unlike neighbours along the axes it looks at. -/
noncomputable def pottsE (g : Shape) (σ : Fin g.nodes.toNat → Fin 20) : ℝ := (interaction g (pottsAxes g) unlike (array colour σ) : Int) / 2

/-- Probability that `rand()%Q` is `v`. -/
noncomputable def spinShare (M : Nat) (v : Fin 20) : ℝ := share fun s : Fin (M + 1) => s.1 % 20 = v.1

/-- Weight of a configuration before the energy is considered: spins that `rand()%Q` draws more often are preferred. -/
noncomputable def spinWeight (g : Shape) (M : Nat) (σ : Fin g.nodes.toNat → Fin 20) : ℝ := ∏ m, spinShare M (σ m)

/-- What two numbers drawn propose. -/
def pottsMove (M : Nat) (hpos : 0 < g.nodes.toNat) (σ : Fin g.nodes.toNat → Fin 20) (p : Fin (M + 1) × Fin (M + 1)) : Fin g.nodes.toNat → Fin 20 :=
  Function.update σ ⟨p.1.1 % g.nodes.toNat, Nat.mod_lt _ hpos⟩ ⟨p.2.1 % 20, Nat.mod_lt _ (by decide)⟩

open Classical in
noncomputable def pottsStep (M : Nat) (kT : ℝ) (hpos : 0 < g.nodes.toNat) (σ : Fin g.nodes.toNat → Fin 20) (r : (Fin (M + 1) × Fin (M + 1)) × Fin (M + 1)) : Fin g.nodes.toNat → Fin 20 :=
  if Accepts M kT (pottsE g (pottsMove M hpos σ r.1) - pottsE g σ) r.2 then pottsMove M hpos σ r.1 else σ

theorem pottsStep_follows (M : Nat) (kT : ℝ) (hpos : 0 < g.nodes.toNat) : Follows M kT (pottsE g) (pottsMove M hpos) (pottsStep M kT hpos) :=
  fun _ _ _ => ⟨fun h => if_pos h, fun h => if_neg h⟩

theorem spinShare_pos {M : Nat} (hQ : 20 ≤ M + 1) (v : Fin 20) : 0 < spinShare M v :=
  share_pos (x := ⟨v.1, by omega⟩) (Nat.mod_eq_of_lt v.2)

theorem spinWeight_pos {M : Nat} (hQ : 20 ≤ M + 1) (σ : Fin g.nodes.toNat → Fin 20) : 0 < spinWeight g M σ := Finset.prod_pos fun _ _ => spinShare_pos hQ _

theorem spinWeight_update (M : Nat) (σ : Fin g.nodes.toNat → Fin 20) (m : Fin g.nodes.toNat) (v : Fin 20) :
    spinWeight g M σ * spinShare M v = spinWeight g M (Function.update σ m v) * spinShare M (σ m) := by
  classical
  unfold spinWeight
  have h : ∏ i ∈ Finset.univ.erase m, spinShare M (Function.update σ m v i) = ∏ i ∈ Finset.univ.erase m, spinShare M (σ i) :=
    Finset.prod_congr rfl fun i hi => by rw [Function.update_of_ne (Finset.ne_of_mem_erase hi)]
  rw [← Finset.mul_prod_erase _ _ (Finset.mem_univ m), ← Finset.mul_prod_erase _ (fun i => spinShare M (Function.update σ m v i)) (Finset.mem_univ m), Function.update_self, h]
  ring

/-- Proposals are balanced with these weights. -/
theorem pottsMove_balance (M : Nat) (hpos : 0 < g.nodes.toNat) (σ τ : Fin g.nodes.toNat → Fin 20) (hne : σ ≠ τ) :
    spinWeight g M σ * share (fun p => pottsMove M hpos σ p = τ) = spinWeight g M τ * share fun p => pottsMove M hpos τ p = σ := by
  by_cases h : ∃ m v, τ = Function.update σ m v
  · obtain ⟨m, v, rfl⟩ := h
    have hv : v ≠ σ m := by rintro rfl; exact hne (Function.update_eq_self _ _).symm
    have h1 : share (fun p : Fin (M + 1) × Fin (M + 1) => pottsMove M hpos σ p = Function.update σ m v) =
        share (fun s : Fin (M + 1) => s.1 % g.nodes.toNat = m.1) * spinShare M v := by
      unfold spinShare
      rw [← share_prod]
      refine share_congr fun p => ?_
      unfold pottsMove
      constructor
      · intro e
        by_cases hm : (⟨p.1.1 % g.nodes.toNat, Nat.mod_lt _ hpos⟩ : Fin g.nodes.toNat) = m
        · rw [hm] at e
          have := congrFun e m
          rw [Function.update_self, Function.update_self] at this
          exact ⟨congrArg Fin.val hm, congrArg Fin.val this⟩
        · have := congrFun e m
          rw [Function.update_of_ne (Ne.symm hm), Function.update_self] at this
          exact absurd this.symm hv
      · rintro ⟨e1, e2⟩
        rw [show (⟨p.1.1 % g.nodes.toNat, Nat.mod_lt _ hpos⟩ : Fin g.nodes.toNat) = m from Fin.ext e1, show (⟨p.2.1 % 20, Nat.mod_lt _ (by decide)⟩ : Fin 20) = v from Fin.ext e2]
    have h2 : share (fun p : Fin (M + 1) × Fin (M + 1) => pottsMove M hpos (Function.update σ m v) p = σ) =
        share (fun s : Fin (M + 1) => s.1 % g.nodes.toNat = m.1) * spinShare M (σ m) := by
      unfold spinShare
      rw [← share_prod]
      refine share_congr fun p => ?_
      unfold pottsMove
      constructor
      · intro e
        by_cases hm : (⟨p.1.1 % g.nodes.toNat, Nat.mod_lt _ hpos⟩ : Fin g.nodes.toNat) = m
        · rw [hm] at e
          have := congrFun e m
          rw [Function.update_self] at this
          exact ⟨congrArg Fin.val hm, congrArg Fin.val this⟩
        · have := congrFun e m
          rw [Function.update_of_ne (Ne.symm hm), Function.update_self] at this
          exact absurd this hv
      · rintro ⟨e1, e2⟩
        rw [show (⟨p.1.1 % g.nodes.toNat, Nat.mod_lt _ hpos⟩ : Fin g.nodes.toNat) = m from Fin.ext e1, show (⟨p.2.1 % 20, Nat.mod_lt _ (by decide)⟩ : Fin 20) = σ m from Fin.ext e2,
          Function.update_idem, Function.update_eq_self]
    rw [h1, h2]
    linear_combination (share fun s : Fin (M + 1) => s.1 % g.nodes.toNat = m.1) * spinWeight_update M σ m v
  · have h1 : share (fun p : Fin (M + 1) × Fin (M + 1) => pottsMove M hpos σ p = τ) = 0 := by
      refine le_antisymm (not_lt.1 fun hs => ?_) (share_nonneg _)
      obtain ⟨p, hp⟩ := share_exists hs
      exact h ⟨_, _, hp.symm⟩
    have h2 : share (fun p : Fin (M + 1) × Fin (M + 1) => pottsMove M hpos τ p = σ) = 0 := by
      refine le_antisymm (not_lt.1 fun hs => ?_) (share_nonneg _)
      obtain ⟨p, hp⟩ := share_exists hs
      unfold pottsMove at hp
      refine h ⟨⟨p.1.1 % g.nodes.toNat, Nat.mod_lt _ hpos⟩, τ ⟨p.1.1 % g.nodes.toNat, Nat.mod_lt _ hpos⟩, ?_⟩
      rw [← hp, Function.update_idem, Function.update_eq_self]
    rw [h1, h2, mul_zero, mul_zero]

variable (ht : Torus g) (hside : ∀ j < g.dim, 2 ≤ g.x1 j - g.x0 j)
include ht hside

/-- The sum the program computes and the energy lead to the same decision. -/
theorem pottsSum_energy (d : Int → Int) {m : Nat} (hm : m < g.nodes.toNat) {v : Int} (hne : v ≠ d m) :
    ∃ s, pottsSum .serial g d (g.position m) (d m) v = .ok s ∧
      ((s : ℚ) = ((interaction g (pottsAxes g) unlike (Function.update d (m : Int) v) - interaction g (pottsAxes g) unlike d : Int) : ℚ) / 2 ∨
        s = -1 ∧ interaction g (pottsAxes g) unlike (Function.update d (m : Int) v) = interaction g (pottsAxes g) unlike d) := by
  by_cases h2 : g.dim = 2
  · obtain ⟨s, e, h⟩ := potts_plane ht h2 (hside 0 (by omega)) d hm hne
    refine ⟨s, e, Or.inl ?_⟩
    rw [show pottsAxes g = [0] from if_pos h2, h]; push_cast; ring
  · by_cases h3 : g.dim = 3
    · obtain ⟨s, e, h⟩ := potts_energy_partial ht h3 hside d hm hne
      refine ⟨s, e, Or.inl ?_⟩
      rw [show pottsAxes g = List.range g.dim by unfold pottsAxes; rw [if_neg h2, if_pos h3, h3]; rfl, h]; push_cast; ring
    · refine ⟨-1, by unfold pottsSum; rw [if_neg h2, if_neg h2, if_neg h3], Or.inr ⟨rfl, ?_⟩⟩
      have hax : pottsAxes g = [] := by unfold pottsAxes; rw [if_neg h2, if_neg h3]
      have hz : ∀ d' : Int → Int, interaction g [] unlike d' = 0 := by
        intro d'
        unfold interaction
        refine Finset.sum_eq_zero fun n hn => ?_
        have hn' := Finset.mem_range.1 hn
        have h0 : nbr g (fun _ => 0) n = n := (nbr_self ht (axes := []) List.nodup_nil (fun j hj => absurd hj List.not_mem_nil)
          ((mem_offsets List.nodup_nil).2 ⟨near_zero, fun _ _ => rfl⟩) (by omega) (by omega)).2 rfl
        simp [offsets, h0, unlike]
      rw [hax, hz, hz]

/-- The program makes the steps. -/
theorem pottsFlip_step (M : Nat) (kT : ℝ) (σ : Fin g.nodes.toNat → Fin 20) (r : (Fin (M + 1) × Fin (M + 1)) × Fin (M + 1)) :
    pottsFlip .serial g (hot M kT) (array colour σ) (r.1.1.1, r.1.2.1, r.2.1) = .ok (array colour (pottsStep M kT (nodes_pos ht) σ r)) := by
  have hpos := nodes_pos ht
  obtain ⟨m, hm⟩ : ∃ m : Fin g.nodes.toNat, m = ⟨r.1.1.1 % g.nodes.toNat, Nat.mod_lt _ hpos⟩ := ⟨_, rfl⟩
  obtain ⟨v, hv⟩ : ∃ v : Fin 20, v = ⟨r.1.2.1 % 20, Nat.mod_lt _ (by decide)⟩ := ⟨_, rfl⟩
  have hmv : pottsMove M hpos σ r.1 = Function.update σ m v := by rw [hm, hv]; rfl
  have hup : Function.update (array colour σ) ((m : Nat) : Int) ((r.1.2.1 % 20 : Nat) : Int) = array colour (Function.update σ m v) := by
    rw [← array_update colour σ m v, hv]; rfl
  have hf := pottsStep_follows (g := g) M kT hpos σ r.1 r.2
  by_cases hvs : v = σ m
  · have hsame : Function.update σ m v = σ := by rw [hvs]; exact Function.update_eq_self _ _
    have hst : pottsStep M kT hpos σ r = σ := by
      by_cases ha : Accepts M kT (pottsE g (pottsMove M hpos σ r.1) - pottsE g σ) r.2
      · have := hf.1 ha; rw [hmv, hsame] at this; exact this
      · exact hf.2 ha
    obtain ⟨m', -, s, -, e⟩ : ∃ m' : Nat, m' = m.1 ∧ ∃ s : Int, pottsSum .serial g (array colour σ) (g.position m') (array colour σ m') (r.1.2.1 % 20 : Nat) = .ok s ∧
        pottsFlip .serial g (hot M kT) (array colour σ) (r.1.1.1, r.1.2.1, r.2.1) =
          .ok (if (s : ℚ) ≤ 0 ∨ hot M kT s r.2.1 = true then Function.update (array colour σ) (m.1 : Int) (r.1.2.1 % 20 : Nat) else array colour σ) := by
      refine ⟨m.1, rfl, ?_⟩
      obtain ⟨s, hs⟩ : ∃ s, pottsSum .serial g (array colour σ) (g.position (m.1 : Nat)) (array colour σ (m.1 : Nat)) (r.1.2.1 % 20 : Nat) = .ok s := by
        unfold pottsSum
        have h := fun {axes : List Nat} (hn : axes.Nodup) =>
          boxSum_eq ht hn (array colour σ) (change (array colour σ (m.1 : Nat)) (r.1.2.1 % 20 : Nat)) (n := (m.1 : Nat)) (by omega) (by omega) (-1)
        split_ifs
        · exact ⟨_, h (by decide)⟩
        · exact ⟨_, h (by decide)⟩
        · exact ⟨_, rfl⟩
      exact ⟨s, hs, pottsFlip_eq ht (hot M kT) (array colour σ) (r.1.1.1, r.1.2.1, r.2.1) (m := m.1) (by rw [hm]) hs⟩
    rw [e, hup, hsame, ite_self, hst]
  · have hne : ((r.1.2.1 % 20 : Nat) : Int) ≠ array colour σ ((m : Nat) : Int) := by
      rw [array_at]
      intro h
      exact hvs (colour_inj (by rw [← h, hv]; rfl))
    obtain ⟨s, hs, hcase⟩ := pottsSum_energy ht hside (array colour σ) m.2 hne
    rw [pottsFlip_eq ht (hot M kT) (array colour σ) (r.1.1.1, r.1.2.1, r.2.1) (m := m.1) (by rw [hm]) hs, hup]
    rw [hup] at hcase
    have hiff : ((s : ℚ) ≤ 0 ∨ hot M kT s r.2.1 = true) ↔ Accepts M kT (pottsE g (pottsMove M hpos σ r.1) - pottsE g σ) r.2 := by
      rw [hmv, hot_iff]
      unfold pottsE
      rcases hcase with h | ⟨h, he⟩
      · rw [h]; push_cast
        rw [sub_div]
      · rw [he, sub_self, h]
        exact ⟨fun _ => Or.inl le_rfl, fun _ => Or.inl (by norm_num)⟩
    by_cases ha : Accepts M kT (pottsE g (pottsMove M hpos σ r.1) - pottsE g σ) r.2
    · rw [if_pos (hiff.2 ha), show pottsStep M kT hpos σ r = _ from hf.1 ha, hmv]
    · rw [if_neg (fun h => ha (hiff.1 h)), show pottsStep M kT hpos σ r = _ from hf.2 ha]

theorem pottsChance_walk (M : Nat) (kT : ℝ) (n : Nat) (σ τ : Fin g.nodes.toNat → Fin 20) : pottsChance g M kT n σ τ = walk (pottsStep M kT (nodes_pos ht)) n σ τ := by
  unfold pottsChance walk
  refine share_congr fun rs => ?_
  have h : pottsRun .serial g (hot M kT) (pottsDraws rs) (array colour σ) = .ok (array colour ((List.ofFn rs).foldl (pottsStep M kT (nodes_pos ht)) σ)) := by
    rw [← fold_array (f := fun d (r : (Fin (M + 1) × Fin (M + 1)) × Fin (M + 1)) => pottsFlip .serial g (hot M kT) d (r.1.1.1, r.1.2.1, r.2.1)) (pottsFlip_step ht hside M kT)]
    unfold pottsRun pottsDraws
    rw [show (List.ofFn fun i => ((rs i).1.1.1, (rs i).1.2.1, (rs i).2.1)) = (List.ofFn rs).map fun r => (r.1.1.1, r.1.2.1, r.2.1) by rw [List.map_ofFn]; rfl, List.foldlM_map]
  rw [h]
  constructor
  · intro e; injection e with e; exact array_inj colour_inj e
  · intro e; rw [e]

theorem potts_total (M : Nat) (kT : ℝ) (n : Nat) (σ : Fin g.nodes.toNat → Fin 20) : ∑ τ, pottsChance g M kT n σ τ = 1 := by
  simp only [pottsChance_walk ht hside]
  exact walk_total _ n σ

/-- **C94.** The Potts example keeps the distribution with weights `exp(-E/kT)` times the probabilities with which `rand()%Q` draws the spins, up to `2 n / (RAND_MAX+1)`. -/
theorem potts_gibbs {M : Nat} (hQ : 20 ≤ M + 1) {kT : ℝ} (hT : 0 < kT) (n : Nat) :
    ∑ τ, |∑ σ, gibbs kT (pottsE g) (spinWeight g M) σ * pottsChance g M kT n σ τ - gibbs kT (pottsE g) (spinWeight g M) τ| ≤ n * (2 / (M + 1)) := by
  simp only [pottsChance_walk ht hside]
  exact stationary_run _ (gibbs_step (pottsStep_follows M kT (nodes_pos ht)) (by omega) hT (spinWeight_pos hQ) (pottsMove_balance M _)) n

omit hside in
theorem potts_single {M : Nat} (hN : g.nodes.toNat ≤ M + 1) (hQ : 20 ≤ M + 1) (kT : ℝ) (σ : Fin g.nodes.toNat → Fin 20) (m : Fin g.nodes.toNat) (v : Fin 20) :
    0 < walk (pottsStep M kT (nodes_pos ht)) 1 σ (Function.update σ m v) := by
  rw [walk_one]
  refine share_pos (x := ((⟨m.1, by omega⟩, ⟨v.1, by omega⟩), ⟨0, by omega⟩)) ?_
  have hmv : pottsMove M (nodes_pos ht) σ (⟨m.1, by omega⟩, ⟨v.1, by omega⟩) = Function.update σ m v := by
    unfold pottsMove
    congr 1
    · exact Fin.ext (Nat.mod_eq_of_lt m.2)
    · exact Fin.ext (Nat.mod_eq_of_lt v.2)
  rw [(pottsStep_follows M kT (nodes_pos ht) σ _ _).1 (Or.inr (by simp [Real.exp_pos])), hmv]

/-- **C94.** From any configuration the Potts example approaches that distribution. -/
theorem potts_samples {M : Nat} (hN : g.nodes.toNat ≤ M + 1) (hQ : 20 ≤ M + 1) {kT : ℝ} (hT : 0 < kT) :
    ∃ (K : Nat) (ρ : ℝ), 0 < K ∧ 0 < ρ ∧ ρ < 1 ∧
      ∀ n σ, ∑ τ, |pottsChance g M kT n σ τ - gibbs kT (pottsE g) (spinWeight g M) τ| ≤ 2 * ρ ^ (n / K) + n * (2 / (M + 1)) := by
  simp only [pottsChance_walk ht hside]
  have hpos := nodes_pos ht
  refine samples (z := fun _ => 0) _ (gibbs_nonneg fun σ => (spinWeight_pos hQ σ).le) (gibbs_total fun σ => spinWeight_pos hQ σ)
    (gibbs_step (pottsStep_follows M kT hpos) (by omega) hT (spinWeight_pos hQ) (pottsMove_balance M _)) (connected fun σ m v => ⟨1, potts_single ht hN hQ kT σ m v⟩) ?_
  have := potts_single ht hN hQ kT (fun _ => 0) ⟨0, hpos⟩ 0
  rwa [Function.update_eq_self_iff.2 rfl] at this

end

theorem residues (v : Nat) (hv : v < 20) (n : Nat) : ∑ s ∈ range n, ind (s % 20 = v) = (((n + 19 - v) / 20 : Nat) : ℝ) := by
  induction n with
  | zero => rw [Finset.sum_range_zero, show (0 + 19 - v) / 20 = 0 by omega, Nat.cast_zero]
  | succ n ih =>
    rw [Finset.sum_range_succ, ih]
    by_cases h : n % 20 = v
    · rw [ind_pos h, show (n + 1 + 19 - v) / 20 = (n + 19 - v) / 20 + 1 by omega]; push_cast; ring
    · rw [ind_neg h, show (n + 1 + 19 - v) / 20 = (n + 19 - v) / 20 by omega, add_zero]

/-- **C94.** How often `rand()%20` is `v`. -/
theorem spinShare_eq (M : Nat) (v : Fin 20) : spinShare M v = (((M + 20 - v.1) / 20 : Nat) : ℝ) / (M + 1) := by
  unfold spinShare
  rw [share_eq, Fin.sum_univ_eq_sum_range (fun s => ind (s % 20 = v.1)), residues v.1 v.2, Fintype.card_fin, show M + 1 + 19 - v.1 = M + 20 - v.1 by omega]
  push_cast
  rfl

/-- With `RAND_MAX = 2147483647` the spins 0 to 7 are drawn more often than the others, by one part in 2147483648. -/
theorem spinShare_differs : spinShare 2147483647 0 - spinShare 2147483647 19 = 1 / 2147483648 ∧ spinShare 2147483647 7 - spinShare 2147483647 8 = 1 / 2147483648 := by
  constructor <;> (rw [spinShare_eq, spinShare_eq]; norm_num)

/-! ## Heisenberg -/

/-- **C94.** The Heisenberg example has no such distribution to offer: what it takes for the energy change of turning a spin and of turning it back add up to twice the scalar
product of the two directions, so they are not the changes of any energy. -/
theorem heisenberg_no_energy {g : Shape} (ht : Torus g) (hside : ∀ j < g.dim, 2 ≤ g.x1 j - g.x0 j) (d : Int → Dir ℝ) {m : Nat} (hm : m < g.nodes.toNat) (hd : dot (d m) (d m) = 1)
    {v : Dir ℝ} (hv : dot v v = 1) (hne : dot (d m) v ≠ 0) :
    ∃ s s', turnSum .serial g d (List.range g.dim) (g.position m) (d m) v = .ok s ∧
      turnSum .serial g (Function.update d (m : Int) v) (List.range g.dim) (g.position m) v (d m) = .ok s' ∧ -1 * s + -1 * s' = 2 * dot (d m) v ∧
      ∀ E : (Int → Dir ℝ) → ℝ, ¬ (-1 * s = E (Function.update d (m : Int) v) - E d ∧ -1 * s' = E d - E (Function.update d (m : Int) v)) := by
  obtain ⟨s, e, h⟩ := heisenberg_energy ht hside d hm hd hv
  obtain ⟨s', e', h'⟩ := heisenberg_energy ht hside (Function.update d (m : Int) v) hm (by rw [Function.update_self]; exact hv) (s2 := d m) hd
  rw [Function.update_self] at e' h'
  rw [Function.update_idem, Function.update_eq_self, dot_comm v] at h'
  have hsum : -1 * s + -1 * s' = 2 * dot (d m) v := by linarith
  refine ⟨s, s', e, e', hsum, fun E hE => hne ?_⟩
  linarith [hE.1, hE.2]

/-- Two unit vectors that are not perpendicular. -/
example : dot (![1, 0, 0] : Dir ℝ) ![1, 0, 0] = 1 ∧ dot (![3 / 5, 4 / 5, 0] : Dir ℝ) ![3 / 5, 4 / 5, 0] = 1 ∧ dot (![1, 0, 0] : Dir ℝ) ![3 / 5, 4 / 5, 0] ≠ 0 := by
  simp [dot, Fin.sum_univ_three]; norm_num

end MMSP.SpinSampling
