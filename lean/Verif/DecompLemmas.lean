import Verif.Decomp
/-!
# Helper lemmas for the domain decomposition
-/

namespace MMSP.Decomp

open Finset

/-! ## One axis -/

/-- Closed form of the lower limit of piece `k`. -/
def cut (g0 g1 p k : Int) : Int := g0 + k * ((g1 - g0) / p) + min k ((g1 - g0) % p)

theorem axisLimits_eq {g0 g1 p k : Int} (hg : g0 ≤ g1) (hp : 0 < p) (hk : 0 ≤ k) :
    axisLimits g0 g1 p k = (cut g0 g1 p k, cut g0 g1 p (k + 1)) := by
  unfold axisLimits cut
  have h0 : 0 ≤ g1 - g0 := by omega
  rw [Int.tdiv_eq_ediv_of_nonneg h0]
  have hr : g1 - g0 - p * ((g1 - g0) / p) = (g1 - g0) % p := by
    have := Int.mul_ediv_add_emod (g1 - g0) p; omega
  have hr0 := Int.emod_nonneg (g1 - g0) hp.ne'
  simp only [hr]
  generalize (g1 - g0) / p = q at *
  generalize (g1 - g0) % p = r at *
  have e : (k + 1) * q = k * q + q := by ring
  rw [e]
  generalize k * q = m
  split
  · split
    · ext <;> simp only <;> omega
    · split <;> ext <;> simp only <;> omega
  · ext <;> simp only <;> omega

theorem cut_zero {g0 g1 p : Int} (hp : 0 < p) : cut g0 g1 p 0 = g0 := by
  unfold cut
  have := Int.emod_nonneg (g1 - g0) hp.ne'
  simp; omega

theorem cut_last {g0 g1 p : Int} (hp : 0 < p) : cut g0 g1 p p = g1 := by
  unfold cut
  have h1 := Int.emod_lt_of_pos (g1 - g0) hp
  have h2 := Int.mul_ediv_add_emod (g1 - g0) p
  omega

theorem cut_succ (g0 g1 p k : Int) :
    cut g0 g1 p (k + 1) - cut g0 g1 p k = (g1 - g0) / p + if k < (g1 - g0) % p then 1 else 0 := by
  unfold cut
  have e : (k + 1) * ((g1 - g0) / p) = k * ((g1 - g0) / p) + (g1 - g0) / p := by ring
  rw [e]
  split <;> omega

theorem cut_le_succ {g0 g1 p : Int} (hg : g0 ≤ g1) (hp : 0 < p) (k : Int) :
    cut g0 g1 p k ≤ cut g0 g1 p (k + 1) := by
  have h := cut_succ g0 g1 p k
  have : 0 ≤ (g1 - g0) / p := Int.ediv_nonneg (by omega) hp.le
  split at h <;> omega

theorem cut_mono {g0 g1 p : Int} (hg : g0 ≤ g1) (hp : 0 < p) {k l : Int} (hkl : k ≤ l) :
    cut g0 g1 p k ≤ cut g0 g1 p l := by
  obtain ⟨n, rfl⟩ : ∃ n : Nat, l = k + n := ⟨(l - k).toNat, by omega⟩
  clear hkl
  induction n with
  | zero => simp
  | succ n ih =>
    have := cut_le_succ hg hp (k + n)
    push_cast
    rw [← add_assoc]
    omega

theorem cut_piece {g0 g1 p : Int} (hg : g0 ≤ g1) (hp : 0 < p) {x : Int} (hx0 : g0 ≤ x) (hx1 : x < g1) :
    ∃ k, 0 ≤ k ∧ k < p ∧ cut g0 g1 p k ≤ x ∧ x < cut g0 g1 p (k + 1) := by
  have key : ∀ n : Nat, x < cut g0 g1 p n → ∃ k : Nat, k < n ∧ cut g0 g1 p k ≤ x ∧ x < cut g0 g1 p (k + 1) := by
    intro n
    induction n with
    | zero => intro h; simp only [Nat.cast_zero, cut_zero hp] at h; omega
    | succ n ih =>
      intro h
      by_cases hx : x < cut g0 g1 p n
      · obtain ⟨k, hk, h'⟩ := ih hx
        exact ⟨k, by omega, h'⟩
      · exact ⟨n, by omega, by omega, by push_cast at h; exact h⟩
  obtain ⟨k, hk, h⟩ := key p.toNat (by rw [Int.toNat_of_nonneg hp.le, cut_last hp]; exact hx1)
  exact ⟨k, by omega, by omega, h⟩

theorem cut_unique {g0 g1 p : Int} (hg : g0 ≤ g1) (hp : 0 < p) {x k l : Int}
    (h1 : cut g0 g1 p k ≤ x ∧ x < cut g0 g1 p (k + 1)) (h2 : cut g0 g1 p l ≤ x ∧ x < cut g0 g1 p (l + 1)) :
    k = l := by
  rcases lt_trichotomy k l with h | h | h
  · have := cut_mono hg hp (k := k + 1) (l := l) (by omega); omega
  · exact h
  · have := cut_mono hg hp (k := l + 1) (l := k) (by omega); omega

/-! ## Factors -/

theorem getD_of_lt {l : List Int} {i : Nat} (h : i < l.length) : l.getD i 0 = l[i] := by
  simp [List.getD, h]

theorem mem_factors {np : Nat} {a : Int} : a ∈ factors np ↔ 0 < a ∧ a ≤ np ∧ a ∣ np := by
  unfold factors
  simp only [List.mem_filter, List.mem_map, List.mem_range, decide_eq_true_eq]
  constructor
  · rintro ⟨⟨k, hk, rfl⟩, h⟩
    refine ⟨by omega, by omega, ⟨(np : Int).tdiv (k + 1), ?_⟩⟩
    rw [mul_comm]; exact h.symm
  · rintro ⟨h0, h1, h2⟩
    refine ⟨⟨(a - 1).toNat, by omega, by omega⟩, ?_⟩
    exact Int.tdiv_mul_cancel h2

theorem factors_sorted (np : Nat) : (factors np).Pairwise (· < ·) := by
  unfold factors
  apply List.Pairwise.filter
  rw [List.pairwise_map]
  apply List.Pairwise.imp _ (List.pairwise_lt_range (n := np))
  intro a b h; omega

theorem factors_length_pos {np : Nat} (h : 0 < np) : 0 < (factors np).length := by
  apply List.length_pos_of_mem (a := 1)
  rw [mem_factors]; exact ⟨by decide, by omega, one_dvd _⟩

/-- Index of a divisor in the factor list. -/
theorem exists_factor_index {np : Nat} {a : Int} (h : a ∈ factors np) :
    ∃ c : Nat, c < (factors np).length ∧ (factors np).getD c 0 = a := by
  obtain ⟨c, hc, he⟩ := List.mem_iff_getElem.mp h
  exact ⟨c, hc, by rw [getD_of_lt hc, he]⟩

theorem factor_mono {np : Nat} {c c' : Nat} (hc : c < (factors np).length) (hc' : c' < (factors np).length)
    (h : (factors np).getD c 0 < (factors np).getD c' 0) : c < c' := by
  rw [getD_of_lt hc, getD_of_lt hc'] at h
  by_contra hn
  rcases Nat.lt_or_ge c' c with h' | h'
  · have := List.pairwise_iff_getElem.mp (factors_sorted np) c' c hc' hc h'
    omega
  · have : c = c' := by omega
    subst this; omega

theorem factor_inj {np : Nat} {c c' : Nat} (hc : c < (factors np).length) (hc' : c' < (factors np).length)
    (h : (factors np).getD c 0 = (factors np).getD c' 0) : c = c' := by
  rw [getD_of_lt hc, getD_of_lt hc'] at h
  rcases Nat.lt_trichotomy c c' with h' | h' | h'
  · have := List.pairwise_iff_getElem.mp (factors_sorted np) c c' hc hc' h'; omega
  · exact h'
  · have := List.pairwise_iff_getElem.mp (factors_sorted np) c' c hc' hc h'; omega

/-! ## The enumeration of combinations -/

theorem prod_nfac (d : Nat) (n : Nat) : ∏ _k ∈ range d, (n : Int) = ((n ^ d : Nat) : Int) := by
  rw [Finset.prod_const, Finset.card_range]; push_cast; rfl

theorem combo_bounds {d n : Nat} (hn : 0 < n) {i : Nat} (hi : i < n ^ d) {j : Nat} (hj : j < d) :
    0 ≤ combo d n i j ∧ combo d n i j < n := by
  have := digit_inBox (d := d) (r := fun _ => (n : Int)) (fun _ _ => by omega) (n := i) (by omega)
    (by rw [prod_nfac]; exact_mod_cast hi) j hj
  exact this

/-- Every tuple of factors occurs in the enumeration. -/
theorem exists_combo {np d : Nat} {q : Nat → Int} (hq : ∀ j, j < d → q j ∈ factors np) :
    ∃ i : Nat, i < (factors np).length ^ d ∧ ∀ j, j < d → comboFactor np d i j = q j := by
  have hc : ∀ j, ∃ c : Nat, j < d → c < (factors np).length ∧ (factors np).getD c 0 = q j := by
    intro j
    by_cases hj : j < d
    · obtain ⟨c, h⟩ := exists_factor_index (hq j hj); exact ⟨c, fun _ => h⟩
    · exact ⟨0, fun h => absurd h hj⟩
  choose c hc using hc
  have hbox : InBox d (fun _ => ((factors np).length : Int)) (fun j => (c j : Int)) := by
    intro j hj; have := (hc j hj).1; constructor <;> push_cast <;> omega
  have hb := encode_bounds hbox
  rw [prod_nfac] at hb
  refine ⟨(encode d (slice d fun _ => ((factors np).length : Int)) (fun j => (c j : Int))).toNat, ?_, ?_⟩
  · omega
  · intro j hj
    unfold comboFactor combo
    rw [Int.toNat_of_nonneg hb.1, digit_encode hbox hj]
    simpa using (hc j hj).2

theorem comboFactor_mem {np d : Nat} (hnp : 0 < np) {i : Nat} (hi : i < (factors np).length ^ d) {j : Nat}
    (hj : j < d) : comboFactor np d i j ∈ factors np := by
  have hb := combo_bounds (factors_length_pos hnp) hi hj
  unfold comboFactor
  rw [getD_of_lt (by omega)]
  exact List.getElem_mem _

/-- The enumeration is in lexicographic order of the factor tuples. -/
theorem combo_lex {np d : Nat} (hnp : 0 < np) {i k : Nat} (hi : i < (factors np).length ^ d)
    (hk : k < (factors np).length ^ d) (h : LexLt d (comboFactor np d i) (comboFactor np d k)) : i < k := by
  obtain ⟨j, hj, he, hl⟩ := h
  have hn := factors_length_pos hnp
  have bi := fun j hj => combo_bounds (d := d) hn hi (j := j) hj
  have bk := fun j hj => combo_bounds (d := d) hn hk (j := j) hj
  have hlen : ∀ j, j < d → (0 : Int) < ((factors np).length : Int) := fun _ _ => by omega
  have ei := encode_digit (d := d) (r := fun _ => ((factors np).length : Int)) hlen (n := i) (by omega)
    (by rw [prod_nfac]; exact_mod_cast hi)
  have ek := encode_digit (d := d) (r := fun _ => ((factors np).length : Int)) hlen (n := k) (by omega)
    (by rw [prod_nfac]; exact_mod_cast hk)
  have hlt := encode_lt_of_lex (d := d) (r := fun _ => ((factors np).length : Int))
    (x := combo d (factors np).length i) (y := combo d (factors np).length k) bi bk
    ⟨j, hj, by
      intro m hm
      have h1 := he m hm
      have b1 := bi m (by omega)
      have b2 := bk m (by omega)
      have := factor_inj (by omega) (by omega) h1
      omega, by
      have b1 := bi j hj
      have b2 := bk j hj
      have := factor_mono (by omega) (by omega) hl
      omega⟩
  unfold combo at hlt
  rw [ei, ek] at hlt
  omega

/-! ## The minimising fold -/

/-- Cost of a process grid. -/
def cost (d : Nat) (area q : Nat → Int) : Int := ∑ j ∈ range d, area j * (1 + q j)

theorem chooseStep_eq (np d : Nat) (area : Nat → Int) (t : Best) (n : Nat) :
    chooseStep np d area t n =
      if ∏ j ∈ range d, comboFactor np d n j = np then
        if cost d area (comboFactor np d n) < t.minarea ∨ t.minarea < 0 then
          { minarea := cost d area (comboFactor np d n), p1 := comboFactor np d n } else t
      else t := rfl

theorem chooseStep_spec {np d : Nat} {area : Nat → Int}
    (hpos : ∀ i : Nat, i < (factors np).length ^ d → 0 ≤ cost d area (comboFactor np d i)) (n : Nat)
    (hn : n ≤ (factors np).length ^ d) :
    let s := (List.range n).foldl (chooseStep np d area) { minarea := -1, p1 := fun _ => 1 }
    let valid := fun i : Nat => ∏ j ∈ range d, comboFactor np d i j = (np : Int)
    ((∀ i, i < n → ¬ valid i) ∧ s.minarea = -1) ∨
    (∃ k, k < n ∧ valid k ∧ s.p1 = comboFactor np d k ∧ s.minarea = cost d area (comboFactor np d k) ∧
      (∀ i, i < n → valid i → s.minarea ≤ cost d area (comboFactor np d i)) ∧
      (∀ i, i < k → valid i → s.minarea < cost d area (comboFactor np d i))) := by
  intro s valid
  induction n with
  | zero => left; exact ⟨by intro i hi; omega, rfl⟩
  | succ n ih =>
    have ih := ih (by omega)
    have hc := hpos n (by omega)
    simp only [s, List.range_succ, List.foldl_append, List.foldl_cons, List.foldl_nil]
    generalize (List.range n).foldl (chooseStep np d area) { minarea := -1, p1 := fun _ => 1 } = t at *
    rw [chooseStep_eq]
    by_cases hv : valid n
    · rw [if_pos hv]
      rcases ih with ⟨h1, h2⟩ | ⟨k, hk, hvk, hp, hm, hle, hlt⟩
      · right
        refine ⟨n, by omega, hv, ?_⟩
        rw [if_pos (by right; omega)]
        refine ⟨rfl, rfl, ?_, ?_⟩
        · intro i hi hvi
          by_cases hin : i = n
          · subst hin; exact le_rfl
          · exact absurd hvi (h1 i (by omega))
        · intro i hi hvi; exact absurd hvi (h1 i hi)
      · right
        have hm0 := hpos k (by omega)
        by_cases hb : cost d area (comboFactor np d n) < t.minarea
        · refine ⟨n, by omega, hv, ?_⟩
          rw [if_pos (Or.inl hb)]
          refine ⟨rfl, rfl, ?_, ?_⟩
          · intro i hi hvi
            by_cases hin : i = n
            · subst hin; exact le_rfl
            · have := hle i (by omega) hvi
              exact (hb.trans_le this).le
          · intro i hi hvi
            have := hle i (by omega) hvi
            exact hb.trans_le this
        · refine ⟨k, by omega, hvk, ?_⟩
          rw [if_neg (by rintro (h | h); exacts [hb h, by omega])]
          refine ⟨hp, hm, ?_, hlt⟩
          intro i hi hvi
          by_cases hin : i = n
          · subst hin; exact not_lt.mp hb
          · exact hle i (by omega) hvi
    · rw [if_neg hv]
      rcases ih with ⟨h1, h2⟩ | ⟨k, hk, hvk, hp, hm, hle, hlt⟩
      · left
        refine ⟨?_, h2⟩
        intro i hi
        by_cases hin : i = n
        · subst hin; exact hv
        · exact h1 i (by omega)
      · right
        refine ⟨k, by omega, hvk, hp, hm, ?_, hlt⟩
        intro i hi hvi
        by_cases hin : i = n
        · subst hin; exact absurd hvi hv
        · exact hle i (by omega) hvi

end MMSP.Decomp
