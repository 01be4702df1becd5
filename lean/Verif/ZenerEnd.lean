import Verif.SpinDouble
import Verif.SpinZener
/-!
# Monte Carlo Zener pinning: particles do not pin for ever (C125)

At the temperatures of the two files (`isotropic/Monte_Carlo/zener.cpp` 98, `anisotropic/Monte_Carlo/zener.cpp` 99) every change of spin to one in the neighbourhood has a chance, and a
single grain is never left. So the probability that more than one grain is left goes to 0, wherever the particles are, if they do not separate the other sites.
Program: `zenerRun` of `Verif/SpinZener.lean`.
-/

namespace MMSP.ZenerEnd

open Finset MMSP.Spin MMSP.SpinZener MMSP.Sampling Sparse Ieee Num

/-! ## Walks that end -/

section
variable {A D : Type} [Fintype D] (step : A → D → A) (Good : A → Prop)

/-- Probability that `n` steps from `a` do not end well. -/
noncomputable def bad (n : Nat) (a : A) : ℝ := share fun rs : Fin n → D => ¬ Good ((List.ofFn rs).foldl step a)

theorem bad_zero (a : A) : bad step Good 0 a = ind (¬ Good a) := by
  unfold bad
  rw [share_eq, Fintype.sum_unique]
  simp

theorem bad_cons (n : Nat) (a : A) : bad step Good (n + 1) a = (∑ r, bad step Good n (step a r)) / Fintype.card D := by
  unfold bad
  simp only [share_eq]
  rw [← Equiv.sum_comp (Fin.consEquiv fun _ => D), Fintype.sum_prod_type, ← Finset.sum_div, div_div]
  congr 1
  · refine Finset.sum_congr rfl fun r _ => Finset.sum_congr rfl fun rs _ => ?_
    simp [Fin.consEquiv, List.ofFn_succ]
  · simp [pow_succ]

variable {step Good} [Nonempty D] {Inv : A → Prop} (hI : ∀ a r, Inv a → Inv (step a r)) (hG : ∀ a r, Inv a → Good a → Good (step a r))
include hI

theorem bad_later {m : Nat} {B : ℝ} (hB : ∀ a, Inv a → bad step Good m a ≤ B) (k : Nat) (a : A) (ha : Inv a) : bad step Good (k + m) a ≤ B := by
  have hD : (0 : ℝ) < Fintype.card D := by exact_mod_cast Fintype.card_pos
  induction k generalizing a with
  | zero => rw [Nat.zero_add]; exact hB a ha
  | succ k ih =>
    rw [show k + 1 + m = k + m + 1 by omega, bad_cons, div_le_iff₀ hD]
    calc ∑ r, bad step Good (k + m) (step a r) ≤ ∑ _r : D, B := Finset.sum_le_sum fun r _ => ih _ (hI a r ha)
      _ = _ := by rw [Finset.sum_const, nsmul_eq_mul, Finset.card_univ, mul_comm]

include hG

omit [Nonempty D] in
theorem bad_good (n : Nat) (a : A) (ha : Inv a) (h : Good a) : bad step Good n a = 0 := by
  induction n generalizing a with
  | zero => rw [bad_zero, ind_neg (not_not.2 h)]
  | succ n ih => rw [bad_cons, Finset.sum_eq_zero fun r _ => ih _ (hI a r ha) (hG a r ha h), zero_div]

theorem bad_list {m : Nat} {B : ℝ} (hB : ∀ a, Inv a → bad step Good m a ≤ B) (l : List D) (a : A) (ha : Inv a) (h : Good (l.foldl step a)) :
    bad step Good (l.length + m) a ≤ (1 - 1 / (Fintype.card D : ℝ) ^ l.length) * B := by
  classical
  have hD : (0 : ℝ) < Fintype.card D := by exact_mod_cast Fintype.card_pos
  induction l generalizing a with
  | nil => rw [List.length_nil, bad_good hI hG _ a ha h]; simp
  | cons r l ih =>
    rw [List.length_cons, show l.length + 1 + m = l.length + m + 1 by omega, bad_cons, div_le_iff₀ hD, ← Finset.add_sum_erase _ _ (Finset.mem_univ r)]
    have h1 := ih (step a r) (hI a r ha) h
    have h2 : ∑ r' ∈ Finset.univ.erase r, bad step Good (l.length + m) (step a r') ≤ (Fintype.card D - 1) * B := by
      calc ∑ r' ∈ Finset.univ.erase r, bad step Good (l.length + m) (step a r') ≤ ∑ _r' ∈ Finset.univ.erase r, B :=
            Finset.sum_le_sum fun r' _ => bad_later hI hB _ _ (hI a r' ha)
        _ = _ := by
            rw [Finset.sum_const, nsmul_eq_mul, Finset.card_erase_of_mem (Finset.mem_univ r), Finset.card_univ, Nat.cast_sub Fintype.card_pos, Nat.cast_one]
    refine (add_le_add h1 h2).trans (le_of_eq ?_)
    rw [pow_succ]
    field_simp
    ring

/-- If from everywhere some `N` draws lead to a good end, the probability of a bad one after `n` is at most `(1-|D|^-N)^(n/N)`. -/
theorem bad_power {N : Nat} (hr : ∀ a, Inv a → ∃ l : List D, l.length = N ∧ Good (l.foldl step a)) (n : Nat) (a : A) (ha : Inv a) :
    bad step Good n a ≤ (1 - 1 / (Fintype.card D : ℝ) ^ N) ^ (n / N) := by
  have key : ∀ q s a, Inv a → bad step Good (q * N + s) a ≤ (1 - 1 / (Fintype.card D : ℝ) ^ N) ^ q := by
    intro q s
    induction q with
    | zero =>
      intro a ha
      rw [pow_zero]
      refine bad_later hI (m := 0) (fun a _ => ?_) _ a ha
      rw [bad_zero]
      by_cases h : Good a
      · rw [ind_neg (not_not.2 h)]; exact zero_le_one
      · rw [ind_pos h]
    | succ q ih =>
      intro a ha
      obtain ⟨l, hl, hg⟩ := hr a ha
      have := bad_list hI hG ih l a ha hg
      rw [hl] at this
      rw [show (q + 1) * N + s = N + (q * N + s) by ring, pow_succ']
      exact this
  have := key (n / N) (n % N) a ha
  rwa [Nat.div_add_mod'] at this

end

/-! ## Grains and particles -/

/-- All sites that are not particles have one spin. -/
def Single (g : Shape) (d : Int → Int) : Prop := ∀ m n : Nat, m < g.nodes.toNat → n < g.nodes.toNat → d m ≠ 0 → d n ≠ 0 → d m = d n

/-- From one site to a neighbouring one that is not a particle. -/
def Hop (g : Shape) (d : Int → Int) (m n : Nat) : Prop := d n ≠ 0 ∧ ∃ o ∈ offsets (List.range g.dim), (n : Int) = nbr g o m

/-- The particles do not separate the other sites. -/
def Joined (g : Shape) (d : Int → Int) : Prop :=
  ∀ m n : Nat, m < g.nodes.toNat → n < g.nodes.toNat → d m ≠ 0 → d n ≠ 0 → Relation.ReflTransGen (Hop g d) m n

/-- A change of spin is accepted if `rand()` returns 0 for the test. -/
def Warm {α : Type} [Field α] (g : Shape) (energy : Int → Int → α) (cold : Int → Int → Nat → Bool) (hot : α → Int → Int → Nat → Bool) : Prop :=
  (∀ a b, a ≠ b → cold a b 0 = true) ∧
  ∀ d (m : Nat) a b dE, m < g.nodes.toNat → a ≠ b → energyChange .serial g energy d (List.range g.dim) (g.position m) a b = .ok dE → hot dE a b 0 = true

section
variable {α : Type} [Field α] [LinearOrder α] {g : Shape} {energy : Int → Int → α} {cold : Int → Int → Nat → Bool} {hot : α → Int → Int → Nat → Bool}

/-- Any site that is not a particle can take the spin of any neighbouring one that is not. -/
theorem flip_pick (ht : Torus g) (hd : g.dim ≤ 3) (hw : Warm g energy cold hot) (d : Int → Int) {m : Nat} (hm : m < g.nodes.toNat) {o : Nat → Int} (ho : o ∈ offsets (List.range g.dim))
    (h0 : d m ≠ 0) (h1 : d (nbr g o m) ≠ 0) (h2 : d m ≠ d (nbr g o m)) :
    ∃ i < 27, zenerFlip .serial g energy cold hot d (m, i, 0) = .ok (Function.update d (m : Int) (d (nbr g o m))) := by
  have hc := cell_ok ht hm
  have hdm : deref g d (g.atNode .serial (m : Int)) = .ok (d m) := if_pos hc
  have hst : ∀ v, store g d (g.atNode .serial (m : Int)) v = .ok (Function.update d (m : Int) v) := fun v => if_pos hc
  obtain ⟨s, hs, hok, hk⟩ := near_spec ht d (axes := List.range g.dim) List.nodup_range hm
  have hmem : d (nbr g o m) ∈ keys s := (hk _).2 ⟨o, ho, rfl⟩
  obtain ⟨i, hi, e⟩ := List.getElem_of_mem hmem
  have hi' : i < s.length := by rwa [keys, List.length_map] at hi
  have hlen : s.length ≤ 27 := by
    have hsub : keys s ⊆ (offsets (List.range g.dim)).map fun o => d (nbr g o m) := by
      intro k hkm
      obtain ⟨o', ho', e'⟩ := (hk k).1 hkm
      exact List.mem_map.2 ⟨o', ho', e'⟩
    have := (List.Nodup.subperm hok hsub).length_le
    rw [keys, List.length_map, List.length_map] at this
    exact this.trans (SpinDouble.box_27 hd)
  refine ⟨i, by omega, ?_⟩
  obtain ⟨dE, hE⟩ : ∃ dE, energyChange .serial g energy d (List.range g.dim) (g.position m) (d m) (d (nbr g o m)) = .ok dE :=
    ⟨_, boxSum_eq ht List.nodup_range d (fun spin => energy spin _ - energy spin (d m)) (by omega) (by omega) _⟩
  have hget : s[i].1 = d (nbr g o m) := by rw [← e]; simp [keys]
  unfold zenerFlip
  rw [if_neg (by omega)]
  dsimp only
  rw [Nat.mod_eq_of_lt hm, hdm, Outcome.ok_bind, if_pos h0, hs, Outcome.ok_bind, Nat.mod_eq_of_lt hi', List.getElem?_eq_getElem hi']
  dsimp only
  rw [hget, if_pos ⟨h2, h1⟩, hE, Outcome.ok_bind, hst, if_pos (hw.1 _ _ h2), if_pos (hw.2 d m _ _ dE hm h2 hE)]
  split_ifs <;> rfl

/-- **C125.** A single grain stays as it is, whatever is drawn. -/
theorem single_stays (ht : Torus g) {d : Int → Int} (h : Single g d) (r : Nat × Nat × Nat) : zenerFlip .serial g energy cold hot d r = .ok d := by
  obtain ⟨d', e, rfl | ⟨m, hm, o, ho, h0, h1, hne, -⟩⟩ := zenerFlip_cases ht energy cold hot d r
  · exact e
  · obtain ⟨a, b, -⟩ := nbr_spec ht ((mem_offsets List.nodup_range).1 ho).1 (n := (m : Int)) (by omega) (by omega)
    have := h m (nbr g o m).toNat hm (by omega) h0 (by rwa [Int.toNat_of_nonneg a])
    rw [Int.toNat_of_nonneg a] at this
    exact absurd this.symm hne

/-- **C125.** The spins are at rest exactly if no two neighbouring sites that are not particles have different spins. -/
theorem rests_iff (ht : Torus g) (hd : g.dim ≤ 3) (hw : Warm g energy cold hot) (d : Int → Int) : (∀ r, zenerFlip .serial g energy cold hot d r = .ok d) ↔
    ∀ m : Nat, m < g.nodes.toNat → ∀ o ∈ offsets (List.range g.dim), d m ≠ 0 → d (nbr g o m) ≠ 0 → d m = d (nbr g o m) := by
  constructor
  · intro h m hm o ho h0 h1
    by_contra h2
    obtain ⟨i, -, e⟩ := flip_pick ht hd hw d hm ho h0 h1 h2
    rw [h] at e
    injection e with e
    have := congrFun e (m : Int)
    rw [Function.update_self] at this
    exact h2 this
  · intro h r
    obtain ⟨d', e, rfl | ⟨m, hm, o, ho, h0, h1, hne, -⟩⟩ := zenerFlip_cases ht energy cold hot d r
    · exact e
    · exact absurd (h m hm o ho h0 h1).symm hne

/-- The numbers drawn in one attempt. -/
abbrev Draw (M : Nat) := Fin (M + 1) × Fin (M + 1) × Fin (M + 1)

/-- As `zenerFlip` takes them. -/
def drawn {M : Nat} (r : Draw M) : Nat × Nat × Nat := (r.1.1, r.2.1.1, r.2.2.1)

/-- The spins after an attempt. -/
noncomputable def next (ht : Torus g) (energy : Int → Int → α) (cold : Int → Int → Nat → Bool) (hot : α → Int → Int → Nat → Bool) {M : Nat} (d : Int → Int) (r : Draw M) : Int → Int :=
  (zenerFlip_cases ht energy cold hot d (drawn r)).choose

theorem next_spec (ht : Torus g) {M : Nat} (d : Int → Int) (r : Draw M) : zenerFlip .serial g energy cold hot d (drawn r) = .ok (next ht energy cold hot d r) :=
  (zenerFlip_cases ht energy cold hot d (drawn r)).choose_spec.1

theorem run_next (ht : Torus g) {M : Nat} (l : List (Draw M)) (d : Int → Int) : zenerRun .serial g energy cold hot (l.map drawn) d = .ok (l.foldl (next ht energy cold hot) d) := by
  induction l generalizing d with
  | nil => rfl
  | cons r l ih =>
    unfold zenerRun at ih ⊢
    rw [List.map_cons, List.foldlM_cons, next_spec ht]
    exact ih _

omit [Field α] [LinearOrder α] in
theorem joined_of_zeros {d d' : Int → Int} (h : ∀ n : Nat, n < g.nodes.toNat → (d' n = 0 ↔ d n = 0)) (ht : Torus g) (hj : Joined g d) : Joined g d' := by
  intro m n hm hn h1 h2
  have key : ∀ n, Relation.ReflTransGen (Hop g d) m n → n < g.nodes.toNat ∧ Relation.ReflTransGen (Hop g d') m n := by
    intro n hr
    induction hr with
    | refl => exact ⟨hm, .refl⟩
    | @tail b c _ hop ih =>
      obtain ⟨h3, o, ho, e⟩ := hop
      obtain ⟨-, hlt, -⟩ := nbr_spec ht ((mem_offsets List.nodup_range).1 ho).1 (n := (b : Int)) (by omega) (by have := ih.1; omega)
      rw [← e] at hlt
      exact ⟨by omega, ih.2.tail ⟨fun h0 => h3 ((h _ (by omega)).1 h0), o, ho, e⟩⟩
  exact (key n (hj m n hm hn (fun h0 => h1 ((h m hm).2 h0)) fun h0 => h2 ((h n hn).2 h0))).2

theorem next_zeros (ht : Torus g) {M : Nat} (d : Int → Int) (r : Draw M) (n : Nat) (hn : n < g.nodes.toNat) : next ht energy cold hot d r n = 0 ↔ d n = 0 := by
  obtain ⟨d', e, h, -⟩ := zener_states ht energy cold hot [drawn r] d
  have e2 := run_next (energy := energy) (cold := cold) (hot := hot) ht [r] d
  rw [List.map_singleton, e] at e2
  injection e2 with e2
  rw [List.foldl_cons, List.foldl_nil] at e2
  rw [← e2]
  exact h n hn

omit [Field α] [LinearOrder α] in
/-- Where two grains are left, some site of another spin than `v` has a neighbour of spin `v`. -/
theorem border {d : Int → Int} {v : Int} {m n : Nat} (hr : Relation.ReflTransGen (Hop g d) m n) (hm : d m ≠ v) (h0 : d m ≠ 0) (hn : d n = v) (ht : Torus g) (hlt : m < g.nodes.toNat) :
    ∃ a : Nat, a < g.nodes.toNat ∧ d a ≠ 0 ∧ d a ≠ v ∧ ∃ o ∈ offsets (List.range g.dim), d (nbr g o a) = v := by
  induction hr using Relation.ReflTransGen.head_induction_on with
  | refl => exact absurd hn hm
  | @head a c hop _ ih =>
    obtain ⟨h3, o, ho, e⟩ := hop
    by_cases hc : d c = v
    · exact ⟨a, hlt, h0, hm, o, ho, by rw [← e]; exact hc⟩
    · obtain ⟨_, b, -⟩ := nbr_spec ht ((mem_offsets List.nodup_range).1 ho).1 (n := (a : Int)) (by omega) (by omega)
      rw [← e] at b
      exact ih hc h3 (by omega)

/-- From every start some draws, one for each site, leave a single grain. -/
theorem reach (ht : Torus g) (hd : g.dim ≤ 3) (hw : Warm g energy cold hot) {M : Nat} (hM : 26 ≤ M) (hN : g.nodes.toNat ≤ M + 1) {d : Int → Int} (hj : Joined g d) :
    ∃ l : List (Draw M), l.length = g.nodes.toNat ∧ Single g (l.foldl (next ht energy cold hot) d) := by
  classical
  have stay : ∀ (k : Nat) (d : Int → Int), Single g d → ∃ l : List (Draw M), l.length = k ∧ Single g (l.foldl (next ht energy cold hot) d) := by
    intro k
    induction k with
    | zero => exact fun d h => ⟨[], rfl, h⟩
    | succ k ih =>
      intro d h
      obtain ⟨l, h1, h2⟩ := ih d h
      have e : next ht energy cold hot d (0 : Draw M) = d := by
        have := (next_spec (energy := energy) (cold := cold) (hot := hot) ht d (0 : Draw M)).symm.trans (single_stays ht h _)
        injection this
      exact ⟨0 :: l, by rw [List.length_cons, h1], by rw [List.foldl_cons, e]; exact h2⟩
  have key : ∀ (k : Nat) (d : Int → Int) (v : Int), v ≠ 0 → Joined g d → (∃ n : Nat, n < g.nodes.toNat ∧ d n = v) →
      #{n ∈ Finset.range g.nodes.toNat | d ((n : Nat) : Int) ≠ 0 ∧ d ((n : Nat) : Int) ≠ v} ≤ k → ∃ l : List (Draw M), l.length = k ∧ Single g (l.foldl (next ht energy cold hot) d) := by
    intro k
    induction k with
    | zero =>
      intro d v hv hj hex hcard
      refine ⟨[], rfl, ?_⟩
      have hall : ∀ n : Nat, n < g.nodes.toNat → d n ≠ 0 → d n = v := by
        intro n hn h0
        by_contra hne
        have : n ∈ ({n ∈ Finset.range g.nodes.toNat | d ((n : Nat) : Int) ≠ 0 ∧ d ((n : Nat) : Int) ≠ v} : Finset Nat) := Finset.mem_filter.2 ⟨Finset.mem_range.2 hn, h0, hne⟩
        rw [Finset.card_eq_zero.1 (Nat.le_zero.1 hcard)] at this
        exact absurd this (Finset.notMem_empty _)
      intro m n hm hn h1 h2
      rw [List.foldl_nil] at h1 h2 ⊢
      rw [hall m hm h1, hall n hn h2]
    | succ k ih =>
      intro d v hv hj hex hcard
      by_cases hs : Single g d
      · exact stay _ d hs
      obtain ⟨n0, hn0, e0⟩ := hex
      obtain ⟨m, hm, hm0, hmv⟩ : ∃ m : Nat, m < g.nodes.toNat ∧ d m ≠ 0 ∧ d m ≠ v := by
        by_contra hno
        push Not at hno
        exact hs fun m n hm hn h1 h2 => by rw [hno m hm h1, hno n hn h2]
      obtain ⟨a, ha, ha0, hav, o, ho, hov⟩ := border (hj m n0 hm hn0 hm0 (by rw [e0]; exact hv)) hmv hm0 e0 ht hm
      obtain ⟨i, hi, ef⟩ := flip_pick ht hd hw d ha ho ha0 (by rw [hov]; exact hv) (by rw [hov]; exact hav)
      let r : Draw M := (⟨a, by omega⟩, ⟨i, by omega⟩, 0)
      have er : next ht energy cold hot d r = Function.update d (a : Int) v := by
        have := (next_spec (energy := energy) (cold := cold) (hot := hot) ht d r).symm.trans ef
        rw [hov] at this
        injection this
      have hav2 : (n0 : Int) ≠ a := by
        intro e
        rw [← e, e0] at hav
        exact hav rfl
      obtain ⟨l, h1, h2⟩ := ih (Function.update d (a : Int) v) v hv
        (joined_of_zeros (fun n hn => by rw [← er]; exact next_zeros ht d r n hn) ht hj)
        ⟨n0, hn0, by rw [Function.update_of_ne hav2]; exact e0⟩ (by
          have hlt : #{n ∈ Finset.range g.nodes.toNat | Function.update d (a : Int) v ((n : Nat) : Int) ≠ 0 ∧ Function.update d (a : Int) v ((n : Nat) : Int) ≠ v} <
              #{n ∈ Finset.range g.nodes.toNat | d ((n : Nat) : Int) ≠ 0 ∧ d ((n : Nat) : Int) ≠ v} := by
            apply Finset.card_lt_card
            rw [Finset.ssubset_iff_of_subset]
            · refine ⟨a, Finset.mem_filter.2 ⟨Finset.mem_range.2 ha, ha0, hav⟩, fun h => ?_⟩
              have := (Finset.mem_filter.1 h).2.2
              rw [Function.update_self] at this
              exact this rfl
            · intro n hn
              obtain ⟨h3, h4, h5⟩ := Finset.mem_filter.1 hn
              by_cases e : (n : Int) = a
              · rw [e, Function.update_self] at h5; exact absurd rfl h5
              · rw [Function.update_of_ne e] at h4 h5; exact Finset.mem_filter.2 ⟨h3, h4, h5⟩
          omega)
      exact ⟨r :: l, by rw [List.length_cons, h1], by rw [List.foldl_cons, er]; exact h2⟩
  by_cases hs : Single g d
  · exact stay _ d hs
  obtain ⟨n0, hn0, h0⟩ : ∃ n : Nat, n < g.nodes.toNat ∧ d n ≠ 0 := by
    by_contra hno
    push Not at hno
    exact hs fun m n hm _ h1 _ => absurd (hno m hm) h1
  exact key _ d (d n0) h0 hj ⟨n0, hn0, rfl⟩ ((Finset.card_filter_le _ _).trans (by rw [Finset.card_range]))

/-- **C125.** The probability that more than one grain is left after `n` attempts goes to 0, wherever the particles are, if they do not separate the other sites. -/
theorem grains_vanish (ht : Torus g) (hd : g.dim ≤ 3) (hw : Warm g energy cold hot) {M : Nat} (hM : 26 ≤ M) (hN : g.nodes.toNat ≤ M + 1) {d : Int → Int} (hj : Joined g d) (n : Nat) :
    share (fun rs : Fin n → Draw M => ¬ ∃ d', zenerRun .serial g energy cold hot ((List.ofFn rs).map drawn) d = .ok d' ∧ Single g d') ≤
      (1 - 1 / ((M + 1 : ℝ) ^ 3) ^ g.nodes.toNat) ^ (n / g.nodes.toNat) := by
  have h := bad_power (step := next (M := M) ht energy cold hot) (Good := Single g) (Inv := Joined g)
    (fun d r hj => joined_of_zeros (next_zeros ht d r) ht hj)
    (fun d r _ hs => by
      have := (next_spec (energy := energy) (cold := cold) (hot := hot) ht d r).symm.trans (single_stays ht hs _)
      injection this with this
      rw [this]; exact hs)
    (fun d hj => reach ht hd hw hM hN hj) n d hj
  have e : ((Fintype.card (Draw M) : Nat) : ℝ) = (M + 1 : ℝ) ^ 3 := by
    simp only [Draw, Fintype.card_prod, Fintype.card_fin]
    push_cast
    ring
  rw [e] at h
  refine le_trans (le_of_eq ?_) h
  unfold bad
  refine share_congr fun rs => not_congr ?_
  rw [run_next ht]
  constructor
  · rintro ⟨d', e, h⟩; injection e with e; rw [e]; exact h
  · intro h; exact ⟨_, rfl, h⟩

end

/-- **C125.** So it goes to 0: the bound is below 1. -/
theorem bound_below_one (M N : Nat) : 0 ≤ 1 - 1 / ((M + 1 : ℝ) ^ 3) ^ N ∧ 1 - 1 / ((M + 1 : ℝ) ^ 3) ^ N < 1 := by
  have h1 : (1 : ℝ) ≤ ((M + 1 : ℝ) ^ 3) ^ N := one_le_pow₀ (one_le_pow₀ (by linarith [Nat.cast_nonneg (α := ℝ) M]))
  have h2 : 1 / ((M + 1 : ℝ) ^ 3) ^ N ≤ 1 := by rw [div_le_one (by linarith)]; exact h1
  have h3 : 0 < 1 / ((M + 1 : ℝ) ^ 3) ^ N := by positivity
  constructor <;> linarith

/-! ## The tests of the two files -/

/-- `(spin!=spin2)`, `isotropic/Monte_Carlo/zener.cpp` 155-182; `energy` of `anisotropy.hpp` as shipped, C45. -/
def unit (a b : Int) : ℚ := if a = b then 0 else 1

/-- `kT`, `isotropic/Monte_Carlo/zener.cpp` 98, `anisotropic/Monte_Carlo/zener.cpp` 99. -/
noncomputable def zenerT (dim : Nat) : Num double := SpinDouble.pottsT dim

/-- `r<exp(-dE/kT)`, `isotropic/Monte_Carlo/zener.cpp` 192-196, in doubles. -/
noncomputable def isoHot (exp : Num double → Num double) (dim M : Nat) (dE : ℚ) (_ _ : Int) (k : Nat) : Bool := SpinDouble.hotIeee exp (zenerT dim) M dE k

/-- `r<M*E`, `anisotropic/Monte_Carlo/zener.cpp` 193-198, in doubles; energy and mobility of two different spins are 1. -/
noncomputable def anisoCold (M : Nat) (_ _ : Int) (k : Nat) : Bool := open Classical in decide (MonteCarlo.less (of double k / of double M) (of double 1 * of double 1))

/-- `r<M*E*exp(-dE/(E*kT))`, `anisotropic/Monte_Carlo/zener.cpp` 200, in doubles. -/
noncomputable def anisoHot (exp : Num double → Num double) (dim M : Nat) (dE : ℚ) (_ _ : Int) (k : Nat) : Bool :=
  open Classical in
  decide (MonteCarlo.less (of double k / of double M) (of double 1 * of double 1 * exp (-(of double ((dE : ℚ) : ℝ)) / (of double 1 * zenerT dim))))

/-- What is assumed of `exp`: it is positive for arguments from -128 to 128. -/
def Positive (exp : Num double → Num double) : Prop := ∀ a x, Is a x → |x| ≤ 128 → ∃ y, Is (exp a) y ∧ 0 < y

theorem unit_sum (ht : Torus g) (hd : g.dim ≤ 3) (d : Int → Int) {m : Nat} (hm : m < g.nodes.toNat) {a b : Int} {dE : ℚ}
    (h : energyChange .serial g unit d (List.range g.dim) (g.position m) a b = .ok dE) : ∃ z : ℤ, |z| ≤ 28 ∧ dE = z := by
  have h1 : energyChange .serial g unit d (List.range g.dim) (g.position m) a b = _ :=
    boxSum_eq ht List.nodup_range d (fun spin => unit spin b - unit spin a) (n := (m : Int)) (by omega) (by omega) (-unit a b)
  rw [h] at h1
  injection h1 with h1
  let u : Int → Int → Int := fun a b => if a = b then 0 else 1
  have hu : ∀ a b, unit a b = ((u a b : ℤ) : ℚ) := by intro a b; simp only [unit, u]; split_ifs <;> simp
  refine ⟨-u a b + ((offsets (List.range g.dim)).map fun o => u (d (nbr g o m)) b - u (d (nbr g o m)) a).sum, ?_, ?_⟩
  · have h2 := SpinDouble.sum_le (SpinDouble.box_27 hd) (fun o => u (d (nbr g o m)) b - u (d (nbr g o m)) a) fun o => by
      simp only [u]; split_ifs <;> simp
    have h3 : 0 ≤ u a b ∧ u a b ≤ 1 := by simp only [u]; split_ifs <;> simp
    rw [abs_le] at h2 ⊢
    omega
  · rw [h1, hu]
    push_cast
    congr 1
    rw [List.map_map]
    congr 1
    exact List.map_congr_left fun o _ => by simp only [Function.comp, hu]; push_cast; rfl

theorem one_is : Is (of double 1) 1 := by have := MonteCarlo.of_int (m := 1) (by norm_num); push_cast at this; exact this

theorem one_mul_is {a : Num double} {x : ℝ} (h : Is a x) : Is (of double 1 * a) x := by
  obtain ⟨hf, e⟩ := id h
  have e1 := rnd_rep MonteCarlo.double_p hf.1
  have := one_is.mul h (by rw [one_mul, e1]; exact hf.2)
  rwa [one_mul, e1] at this

theorem exponent {z : ℤ} (hz : |z| ≤ 28) {kT : Num double} {t : ℝ} (hk : Is kT t) (h1 : 1 / 2 ≤ t) : ∃ x, Is (-(of double (((z : ℚ)) : ℝ)) / kT) x ∧ |x| ≤ 128 := by
  have tp : 0 < t := by linarith
  have i1 := (MonteCarlo.of_int (m := z) (by omega)).neg MonteCarlo.double_p
  have hz' : |(z : ℝ)| ≤ 28 := by exact_mod_cast hz
  have q : |-(z : ℝ) / t| ≤ 56 := by
    rw [abs_div, abs_neg, abs_of_pos tp, div_le_iff₀ tp]; linarith
  have r1 : |rnd double (-(z : ℝ) / t) - -(z : ℝ) / t| ≤ 1 := by
    refine (rnd_err double _).trans ?_
    have : max |-(z : ℝ) / t| (tiny double) ≤ 56 := max_le q (IeeeConfine.tiny_double.trans (by norm_num))
    rw [IeeeConfine.ε_double]
    calc (1 / 9007199254740992 : ℝ) * max |-(z : ℝ) / t| (tiny double) ≤ 1 / 9007199254740992 * 56 := mul_le_mul_of_nonneg_left this (by norm_num)
      _ ≤ _ := by norm_num
  have r2 : |rnd double (-(z : ℝ) / t)| ≤ 128 := by
    rw [abs_le] at q r1 ⊢
    constructor <;> linarith [q.1, q.2, r1.1, r1.2]
  refine ⟨_, ?_, r2⟩
  rw [Rat.cast_intCast]
  exact i1.div hk tp.ne' (lt_of_le_of_lt r2 (lt_of_lt_of_le (by norm_num) IeeeConfine.top_double))

theorem zero_draw {M : Nat} (hM0 : 0 < M) (hM : M ≤ 2 ^ 39) : Is (of double ((0 : Nat) : ℝ) / of double (M : ℝ)) 0 := by
  have i3 : Is (of double ((0 : Nat) : ℝ)) ((0 : ℤ) : ℝ) := by have := MonteCarlo.of_int (m := 0) (by norm_num); push_cast at this ⊢; exact this
  have i4 : Is (of double (M : ℝ)) (M : ℝ) := by have := MonteCarlo.of_int (m := (M : ℤ)) (by rw [abs_of_nonneg (by omega)]; omega); exact_mod_cast this
  have hMr : (M : ℝ) ≠ 0 := by exact_mod_cast hM0.ne'
  have := i3.div i4 hMr (by rw [Int.cast_zero, zero_div, rnd_zero, abs_zero]; positivity)
  rwa [Int.cast_zero, zero_div, rnd_zero] at this

/-- **C125.** The test of the isotropic file, in doubles, accepts any change of spin if `rand()` returns 0. -/
theorem iso_warm (ht : Torus g) (hd : g.dim ≤ 3) {exp : Num double → Num double} (hexp : Positive exp) {M : Nat} (hM0 : 0 < M) (hM : M ≤ 2 ^ 39) :
    Warm g unit (fun _ _ _ => true) (isoHot exp g.dim M) := by
  refine ⟨fun _ _ _ => rfl, fun d m a b dE hm _ h => ?_⟩
  obtain ⟨z, hz, rfl⟩ := unit_sum ht hd d hm h
  obtain ⟨x, hx, hx1⟩ := exponent hz (SpinDouble.temp_exact g.dim).2 (by unfold SpinDouble.pottsTemp; split_ifs <;> norm_num)
  obtain ⟨y, hy, hy0⟩ := hexp _ _ hx hx1
  exact (@decide_eq_true_iff _ (Classical.propDecidable _)).2 ⟨0, y, zero_draw hM0 hM, hy, hy0⟩

/-- **C125.** So do those of the anisotropic file. -/
theorem aniso_warm (ht : Torus g) (hd : g.dim ≤ 3) {exp : Num double → Num double} (hexp : Positive exp) {M : Nat} (hM0 : 0 < M) (hM : M ≤ 2 ^ 39) :
    Warm g unit (anisoCold M) (anisoHot exp g.dim M) := by
  refine ⟨fun _ _ _ => (@decide_eq_true_iff _ (Classical.propDecidable _)).2 ⟨0, 1, zero_draw hM0 hM, one_mul_is one_is, one_pos⟩, fun d m a b dE hm _ h => ?_⟩
  obtain ⟨z, hz, rfl⟩ := unit_sum ht hd d hm h
  obtain ⟨x, hx, hx1⟩ := exponent hz (one_mul_is (SpinDouble.temp_exact g.dim).2) (by unfold SpinDouble.pottsTemp; split_ifs <;> norm_num)
  obtain ⟨y, hy, hy0⟩ := hexp _ _ hx hx1
  refine (@decide_eq_true_iff _ (Classical.propDecidable _)).2 ⟨0, y, zero_draw hM0 hM, ?_, hy0⟩
  rw [show of double 1 * of double 1 = of double 1 by rw [SpinDouble.is_of (one_mul_is one_is)]]
  exact one_mul_is hy

/-- **C125.** The assumption holds of the best possible `exp`. -/
theorem bestExp_positive : Positive MonteCarlo.bestExp := by
  rintro a x ⟨hx, rfl⟩ h
  rw [abs_le] at h
  have e4 : Real.exp 1 ≤ 4 := by linarith [Real.exp_one_lt_d9]
  have hlow : (1 : ℝ) / 2 ^ 256 ≤ Real.exp x := by
    have h1 : Real.exp 128 ≤ 2 ^ 256 := by
      have : Real.exp 128 = Real.exp 1 ^ 128 := by rw [← Real.exp_nat_mul]; norm_num
      rw [this, show (2 : ℝ) ^ 256 = 4 ^ 128 by norm_num]
      exact pow_le_pow_left₀ (Real.exp_pos 1).le e4 128
    calc (1 : ℝ) / 2 ^ 256 ≤ 1 / Real.exp 128 := one_div_le_one_div_of_le (Real.exp_pos _) h1
      _ = Real.exp (-128) := by rw [Real.exp_neg, one_div]
      _ ≤ _ := Real.exp_le_exp.2 h.1
  have hhigh : Real.exp x ≤ 2 ^ 256 := by
    refine (Real.exp_le_exp.2 h.2).trans ?_
    have : Real.exp 128 = Real.exp 1 ^ 128 := by rw [← Real.exp_nat_mul]; norm_num
    rw [this, show (2 : ℝ) ^ 256 = 4 ^ 128 by norm_num]
    exact pow_le_pow_left₀ (Real.exp_pos 1).le e4 128
  have rl : Rep double (1 / 2 ^ 256) := ⟨1, -256, by decide, by decide, by norm_num⟩
  have rh : Rep double (2 ^ 256) := ⟨1, 256, by decide, by decide, by norm_num⟩
  have b1 := rnd_mono MonteCarlo.double_p hlow
  have b2 := rnd_mono MonteCarlo.double_p hhigh
  rw [rnd_rep MonteCarlo.double_p rl] at b1
  rw [rnd_rep MonteCarlo.double_p rh] at b2
  have pos : (0 : ℝ) < 1 / 2 ^ 256 := by positivity
  refine ⟨rnd double (Real.exp x), of_is ?_, lt_of_lt_of_le pos b1⟩
  rw [abs_of_nonneg (pos.le.trans b1)]
  refine lt_of_le_of_lt b2 ?_
  exact pow_lt_pow_right₀ (by norm_num) (by decide)

/-! ## Instances -/

/-- Nine sites: a particle, a grain of two sites, a grain of six. -/
def small (p : Int) : Int := if p = 4 then 0 else if p < 2 then 1 else 2

theorem small_joined : Joined (square 3) small := by
  have h : ∀ m < 9, ∀ n < 9, small ((n : Nat) : Int) ≠ 0 → ∃ o ∈ offsets (List.range 2), (n : Int) = nbr (square 3) o ((m : Nat) : Int) := by decide +kernel
  intro m n hm hn _ h2
  exact .single ⟨h2, h m hm n hn h2⟩

example (n : Nat) : share (fun rs : Fin n → Draw 2147483647 => ¬ ∃ d', zenerRun .serial (square 3) unit (fun _ _ _ => true) (isoHot MonteCarlo.bestExp 2 2147483647)
    ((List.ofFn rs).map drawn) small = .ok d' ∧ Single (square 3) d') ≤ (1 - 1 / (((2147483647 : Nat) + 1 : ℝ) ^ 3) ^ (square 3).nodes.toNat) ^ (n / (square 3).nodes.toNat) :=
  grains_vanish (square_torus (by decide)) (by decide) (iso_warm (g := square 3) (square_torus (by decide)) (by decide) bestExp_positive (by decide) (by decide)) (by decide) (by decide +kernel)
    small_joined n

/-- Two walls of particles with a grain on either side. -/
def walls (p : Int) : Int := if p % 4 = 1 then 1 else if p % 4 = 3 then 2 else 0

/-- **C125.** Particles that do separate the other sites keep two grains apart for ever. -/
theorem walls_rest {exp : Num double → Num double} (hexp : Positive exp) : ¬ Single (square 4) walls ∧ ∀ draws,
    zenerRun .serial (square 4) unit (fun _ _ _ => true) (isoHot exp 2 2147483647) draws walls = .ok walls := by
  refine ⟨fun h => absurd (h 1 3 (by decide +kernel) (by decide +kernel) (by decide) (by decide)) (by decide), fun draws => ?_⟩
  have h := (rests_iff (square_torus (by decide)) (by decide) (iso_warm (g := square 4) (square_torus (by decide)) (by decide) hexp (M := 2147483647) (by decide) (by decide)) walls).2
    (by
      have : ∀ m < 16, ∀ o ∈ offsets (List.range 2), walls ((m : Nat) : Int) ≠ 0 → walls (nbr (square 4) o ((m : Nat) : Int)) ≠ 0 → walls ((m : Nat) : Int) = walls (nbr (square 4) o ((m : Nat) : Int)) := by
        decide +kernel
      exact this)
  induction draws with
  | nil => rfl
  | cons r draws ih =>
    unfold zenerRun at ih ⊢
    rw [List.foldlM_cons, show zenerFlip .serial (square 4) unit (fun _ _ _ => true) (isoHot exp 2 2147483647) walls r = .ok walls from h r]
    exact ih

example : ¬ Single (square 3) small := fun h => absurd (h 0 2 (by decide +kernel) (by decide +kernel) (by decide) (by decide)) (by decide)

end MMSP.ZenerEnd
