import Verif.SparseRun
import Verif.SparsePFProps
/-!
# Properties C75 and C76: runs of the anisotropic sparse examples
-/

namespace MMSP.SparsePF

open Finset
open Sparse (keys Ok)
open Stencil (gridAt bump view InReach gridAt_ok)

variable {α : Type} [Field α] [LinearOrder α] [IsStrictOrderedRing α]

/-- What a cell always is: fields of `F`, listed once, with positive values. -/
structure Listed (F : Finset Int) (c : Sparse.Cell α) : Prop where
  once : Ok c
  known : ∀ k ∈ keys c, k ∈ F
  pos : ∀ e ∈ c, 0 < e.2

/-- … and, in the grid that is read and written to files, with values that add up to 1 at least. -/
structure Full (F : Finset Int) (c : Sparse.Cell α) : Prop extends Listed F c where
  total : 1 ≤ (c.map Prod.snd).sum

omit [IsStrictOrderedRing α] in
theorem Listed.nonneg {F : Finset Int} {c : Sparse.Cell α} (h : Listed F c) (k : Int) : 0 ≤ Sparse.get c k := by
  by_cases hk : k ∈ keys c
  · obtain ⟨e, he, rfl⟩ := List.mem_map.1 hk
    rw [Sparse.get_of_mem h.once he]
    exact (h.pos e he).le
  · rw [Sparse.get_of_not_mem hk]

omit [IsStrictOrderedRing α] in
theorem Listed.get_pos {F : Finset Int} {c : Sparse.Cell α} (h : Listed F c) {k : Int} (hk : k ∈ keys c) : 0 < Sparse.get c k := by
  obtain ⟨e, he, rfl⟩ := List.mem_map.1 hk
  rw [Sparse.get_of_mem h.once he]
  exact h.pos e he

theorem raw_pos {F : Finset Int} {z : Sparse.Cell α} (hz : Listed F z) (value : Int → α) {k : Int} (hk : k ∈ keys z ∨ clamp (value k) > tiny) :
    0 < raw value z k := by
  unfold raw
  split_ifs with h
  · exact tiny_pos.trans h
  · exact hz.get_pos (hk.resolve_right h)

theorem raw_nonneg' {F : Finset Int} {z : Sparse.Cell α} (hz : Listed F z) (value : Int → α) (k : Int) : 0 ≤ raw value z k := by
  unfold raw
  split_ifs with h
  · exact (clamp_range _).1
  · exact hz.nonneg k

/-- **C75.** One node: whatever the new cell held before, the result lists known fields once with positive values adding up to at least 1, and the values of the fields
near the node add up to exactly 1. -/
theorem pairNode_full {F : Finset Int} (hF : F.card < 10 ^ 8) {mu : Int → Int → α} (hm : ∀ h j, mu h j = mu j h) (dF : Sparse.Cell α) (dt : α) {s : Sparse.Cell Int} (hs : Ok s)
    (hsF : ∀ k ∈ keys s, k ∈ F) {y z : Sparse.Cell α} (hy : Full F y) (hsub : ∀ k ∈ keys y, k ∈ keys s) (hz : Listed F z) :
    Full F (pairNode dF mu dt s y z) ∧ (2 ≤ s.length → ∑ k ∈ (keys s).toFinset, Sparse.get (pairNode dF mu dt s y z) k = 1) := by
  by_cases h2 : s.length < 2
  · exact ⟨by unfold pairNode; rw [if_pos h2]; exact hy, fun h => by omega⟩
  have hnd : (keys s).Nodup := hs
  have hlen : s.length < 10 ^ 8 := by
    have : (keys s).toFinset.card ≤ F.card := card_le_card fun k hk => hsF k (List.mem_toFinset.1 hk)
    rw [List.toFinset_card_of_nodup hnd, keys, List.length_map] at this
    omega
  set value := freeValue dt (s.length : α) y (rates mu dF (keys s)) with hvalue
  have hpn : pairNode dF mu dt s y z = project (assign value (keys s) z) := by
    unfold pairNode; rw [if_neg h2]; rfl
  have hex : ∃ k ∈ keys s, tiny < value k := by
    by_contra hc
    push Not at hc
    have ht := free_total hm dF dt (s.length : α) y hnd
    rw [← sum_over hy.once (S := (keys s).toFinset) (fun k hk => by simpa using hsub k (by simpa using hk))] at ht
    have hle := sum_le_card_nsmul (keys s).toFinset value tiny fun k hk => hc k (List.mem_toFinset.1 hk)
    rw [ht, List.toFinset_card_of_nodup hnd, keys, List.length_map, nsmul_eq_mul] at hle
    have : (s.length : α) * tiny < 1 := by
      unfold tiny
      rw [mul_one_div, div_lt_one (by positivity)]
      exact_mod_cast hlen
    have := hy.total
    linarith
  have hpos : 0 < ∑ i ∈ (keys s).toFinset, raw value z i := by
    obtain ⟨k, hk, hv⟩ := hex
    exact lt_of_lt_of_le (raw_pos hz value (.inr (clamp_gt hv tiny_lt_one))) (single_le_sum (fun i _ => raw_nonneg' hz value i) (List.mem_toFinset.2 hk))
  obtain ⟨a, b, c⟩ := project_assign value hnd hz.once
  rw [← hpn] at a b c
  refine ⟨⟨⟨a, fun k hk => ?_, fun e he => ?_⟩, ?_⟩, fun _ => ?_⟩
  · rcases (b k).1 hk with h | h
    · exact hz.known k h
    · exact hsF k h.1
  · have hk := (b e.1).1 (List.mem_map.2 ⟨e, he, rfl⟩)
    rw [← Sparse.get_of_mem a he, c]
    refine mul_pos ?_ (inv_pos.2 hpos)
    split_ifs with hin
    · exact raw_pos hz value (hk.imp id And.right)
    · exact hz.get_pos (hk.resolve_right fun h => hin h.1)
  · rw [stale_total dF mu dt hs (by omega) y hz.once hpos.ne']
    have : 0 ≤ ∑ k ∈ (keys z).toFinset \ (keys s).toFinset, Sparse.get z k := sum_nonneg fun k _ => hz.nonneg k
    have := mul_nonneg this (inv_pos.2 hpos).le
    linarith
  · rw [sum_congr rfl fun k hk => by rw [c, if_pos (List.mem_toFinset.1 hk)], ← sum_mul]
    exact mul_inv_cancel₀ hpos.ne'

/-- **C75.** One step on the whole grid. -/
theorem anisoStep_full {g : Shape} (hg : g.Wf) (h0 : g.ghosts = 0) (hr : Reach .serial g) {F : Finset Int} (hF : F.card < 10 ^ 8) (dx : Nat → α) (dt : α)
    (energy : Int → Int → α) {mobility : Int → Int → α} (hm : ∀ h j, mobility h j = mobility j h) (eps w : α → α) {old new : Int → Sparse.Cell α}
    (hold : ∀ p, Listed F (old p)) (hfull : ∀ i : Nat, i < g.nodes.toNat → Full F (old i)) (hnew : ∀ p, Listed F (new p)) :
    ∃ out, anisoStep g dx dt energy mobility eps w (old, new) = .ok (out, old) ∧ (∀ i : Nat, i < g.nodes.toNat → Full F (out i)) ∧ (∀ p, Listed F (out p)) ∧
      ∀ i : Nat, i < g.nodes.toNat → ∃ s, nearby .serial g old (g.position i) = .ok s ∧
        if s.length < 2 then out i = old i else ∑ k ∈ (keys s).toFinset, Sparse.get (out i) k = 1 := by
  obtain ⟨out, e1, e2, e3⟩ := sweep_spec hg (bd := .serial) (fun _ => h0) hr dx (fun _ => anisoNode dt energy mobility eps w) (fun p => (hold p).once) new
  have hnode : ∀ i : Nat, i < g.nodes.toNat → Full F (out i) ∧ ∃ s, nearby .serial g old (g.position i) = .ok s ∧
      if s.length < 2 then out i = old i else ∑ k ∈ (keys s).toFinset, Sparse.get (out i) k = 1 := by
    intro i hi
    obtain ⟨s, lap, a, -, c⟩ := e2 i hi
    obtain ⟨s', a', hs, hk⟩ := nearby_spec hg.dim_pos (hr i hi) old
    obtain rfl : s = s' := by rw [a] at a'; exact Outcome.ok.inj a'
    have hsF : ∀ k ∈ keys s, k ∈ F := by
      intro k hks
      rcases (hk k).1 hks with h | ⟨j, -, h | h⟩
      all_goals exact (hold _).known k h
    have hsub : ∀ k ∈ keys (old (i : Int)), k ∈ keys s := by
      intro k hkk
      refine (hk k).2 (.inl ?_)
      unfold view
      rw [← Shape.atNode_eq_atVec hg .serial (fun _ => h0) (by omega) (by omega)]
      exact hkk
    have := pairNode_full hF hm (forces3 (fun h j => 1 / 2 * eps (energy h j) * eps (energy h j)) (fun h j => w (energy h j)) lap (old (i : Int)) (s.map Prod.fst) []) dt hs
      hsF (hfull i hi) hsub (hnew i)
    have c' : out (i : Int) = anisoNode dt energy mobility eps w s lap (old i) (new i) := c
    refine ⟨c' ▸ this.1, s, a, ?_⟩
    split_ifs with h2
    · rw [c']; unfold anisoNode pairNode; rw [if_pos h2]
    · rw [c']; exact this.2 (by omega)
  refine ⟨out, by rw [anisoStep, e1]; rfl, fun i hi => (hnode i hi).1, fun p => ?_, fun i hi => (hnode i hi).2⟩
  by_cases hp : ∃ i : Nat, i < g.nodes.toNat ∧ p = g.atNode .serial i
  · obtain ⟨i, hi, rfl⟩ := hp
    exact (hnode i hi).1.toListed
  · rw [e3 p fun i hi e => hp ⟨i, hi, e⟩]; exact hnew p

/-- **C75.** Any number of steps: the run never fails, and at every node fields that occurred at the beginning are listed once, with positive values that add up to at
least 1; every step makes the values of the fields listed near a node add up to exactly 1, so that whatever exceeds 1 belongs to fields that are not near any more. -/
theorem anisoRun_full {g : Shape} (hg : g.Wf) (h0 : g.ghosts = 0) (hr : Reach .serial g) {F : Finset Int} (hF : F.card < 10 ^ 8) (dx : Nat → α) (dt : α)
    (energy : Int → Int → α) {mobility : Int → Int → α} (hm : ∀ h j, mobility h j = mobility j h) (eps w : α → α) {data : Int → Sparse.Cell α}
    (hdata : ∀ p, Full F (data p)) (n : Nat) :
    ∃ a b, anisoRun g dx dt energy mobility eps w n data = .ok (a, b) ∧ (∀ i : Nat, i < g.nodes.toNat → Full F (a i)) ∧ (∀ p, Listed F (a p)) ∧ (∀ p, Listed F (b p)) ∧
      (0 < n → ∀ i : Nat, i < g.nodes.toNat → ∃ s, nearby .serial g b (g.position i) = .ok s ∧
        if s.length < 2 then a i = b i else ∑ k ∈ (keys s).toFinset, Sparse.get (a i) k = 1) := by
  induction n with
  | zero => exact ⟨data, _, rfl, fun i _ => hdata i, fun p => (hdata p).toListed, fun p => ⟨by simp [Ok, keys], by simp [keys], by simp⟩, fun h => absurd h (lt_irrefl 0)⟩
  | succ n ih =>
    obtain ⟨a, b, h1, h2, h3, h4, -⟩ := ih
    obtain ⟨out, e1, e2, e3, e4⟩ := anisoStep_full hg h0 hr hF dx dt energy hm eps w h3 h2 h4
    exact ⟨out, a, by rw [anisoRun, h1, Outcome.ok_bind, e1], e2, e3, h3, fun _ => e4⟩

/-! ## Particles -/

omit [LinearOrder α] [IsStrictOrderedRing α] in
theorem pinned_symm {mobility : Int → Int → α} (hm : ∀ h j, mobility h j = mobility j h) (h j : Int) : pinned mobility h j = pinned mobility j h := by
  unfold pinned; simp only [hm h j, or_comm]

omit [LinearOrder α] [IsStrictOrderedRing α] in
/-- **C76.** The rate of the particle field is zero … -/
theorem pinned_rate {mobility : Int → Int → α} (hm : ∀ h j, mobility h j = mobility j h) (dF : Sparse.Cell α) {l : List Int} (hl : l.Nodup) :
    Sparse.get (rates (pinned mobility) dF l) 0 = 0 := by
  unfold rates
  rw [pairs_sum (rate2_adds (pinned_symm hm) dF) hl, Sparse.get_nil, zero_add]
  split_ifs
  · refine sum_eq_zero fun j _ => ?_
    unfold pinned; rw [if_pos (.inl rfl), zero_mul, neg_zero]
  · rfl

/-- … but its value is divided by the sum of all new values near the node. -/
theorem particle_value {mobility : Int → Int → α} (hm : ∀ h j, mobility h j = mobility j h) (dF : Sparse.Cell α) (dt : α) {s : Sparse.Cell Int} (hs : Ok s) (h2 : 2 ≤ s.length)
    {y z : Sparse.Cell α} (hz : Ok z) (h0 : 0 ∈ keys s) (hlow : tiny < Sparse.get y 0) (hup : Sparse.get y 0 ≤ 1) :
    Sparse.get (pairNode dF (pinned mobility) dt s y z) 0 =
      Sparse.get y 0 / ∑ i ∈ (keys s).toFinset, raw (freeValue dt (s.length : α) y (rates (pinned mobility) dF (keys s))) z i := by
  have hnd : (keys s).Nodup := hs
  have hpn : pairNode dF (pinned mobility) dt s y z = project (assign (freeValue dt (s.length : α) y (rates (pinned mobility) dF (keys s))) (keys s) z) := by
    unfold pairNode; rw [if_neg (by omega)]; rfl
  rw [hpn, (project_assign _ hnd hz).2.2, if_pos h0, div_eq_mul_inv]
  congr 1
  have : freeValue dt (s.length : α) y (rates (pinned mobility) dF (keys s)) 0 = Sparse.get y 0 := by
    unfold freeValue
    rw [pinned_rate hm dF hnd, mul_zero, add_zero]
  unfold raw
  rw [this, clamp_mem (tiny_pos.trans hlow).le hup, if_pos hlow]

/-- **C76.** Full property: a step leaves the particle field as it is. True at a node on the simplex when the new cell is empty, no new value is outside [0,1] and none but 0
is below the threshold. Missing: the nodes where a value is cut off (`particle_shrinks`, `particle_dissolves`). -/
theorem particle_kept_partial {mobility : Int → Int → α} (hm : ∀ h j, mobility h j = mobility j h) (dF : Sparse.Cell α) (dt : α) {s : Sparse.Cell Int} (hs : Ok s)
    {y : Sparse.Cell α} (hy : Simplex y) (hsub : ∀ k ∈ keys y, k ∈ keys s) (h0 : 0 ∈ keys s) (hlow : tiny < Sparse.get y 0)
    (hcut : ∀ k ∈ keys s, ∀ v, v = freeValue dt (s.length : α) y (rates (pinned mobility) dF (keys s)) k → v = 0 ∨ tiny < v ∧ v ≤ 1) :
    Sparse.get (pairNode dF (pinned mobility) dt s y []) 0 = Sparse.get y 0 := by
  by_cases h2 : s.length < 2
  · unfold pairNode; rw [if_pos h2]
  have hnd : (keys s).Nodup := hs
  have htot : ∑ k ∈ (keys s).toFinset, Sparse.get y k = 1 := by
    rw [← sum_over hy.once (S := (keys s).toFinset) (fun k hk => by simpa using hsub k (by simpa using hk)), hy.total]
  have hup : Sparse.get y 0 ≤ 1 := by
    by_cases hk : (0 : Int) ∈ keys y
    · obtain ⟨e, he, h⟩ := List.mem_map.1 hk
      rw [← h, Sparse.get_of_mem hy.once he]; exact (hy.range e he).2
    · rw [Sparse.get_of_not_mem hk]; exact zero_le_one
  rw [particle_value hm dF dt hs (by omega) (by simp [Ok, keys]) h0 hlow hup]
  have : ∀ i ∈ (keys s).toFinset, raw (freeValue dt (s.length : α) y (rates (pinned mobility) dF (keys s))) [] i =
      freeValue dt (s.length : α) y (rates (pinned mobility) dF (keys s)) i := by
    intro i hi
    rcases hcut i (List.mem_toFinset.1 hi) _ rfl with h | ⟨h3, h4⟩
    · rw [raw_nil, h, clamp_mem le_rfl zero_le_one, ite_self]
    · rw [raw_nil, clamp_mem (tiny_pos.trans h3).le h4, if_pos h3]
  rw [sum_congr rfl this, free_total (pinned_symm hm) dF dt _ y hnd, htot, div_one]

/-- **C76.** If no value exceeds 1 or falls in the gap between 0 and the threshold, but one comes out negative, the particle shrinks. -/
theorem particle_shrinks {mobility : Int → Int → α} (hm : ∀ h j, mobility h j = mobility j h) (dF : Sparse.Cell α) (dt : α) {s : Sparse.Cell Int} (hs : Ok s) (h2 : 2 ≤ s.length)
    {y : Sparse.Cell α} (hy : Simplex y) (hsub : ∀ k ∈ keys y, k ∈ keys s) (h0 : 0 ∈ keys s) (hlow : tiny < Sparse.get y 0)
    (hcut : ∀ k ∈ keys s, ∀ v, v = freeValue dt (s.length : α) y (rates (pinned mobility) dF (keys s)) k → v ≤ 0 ∨ tiny < v ∧ v ≤ 1)
    (hneg : ∃ k ∈ keys s, freeValue dt (s.length : α) y (rates (pinned mobility) dF (keys s)) k < 0) :
    Sparse.get (pairNode dF (pinned mobility) dt s y []) 0 < Sparse.get y 0 := by
  have hnd : (keys s).Nodup := hs
  have htot : ∑ k ∈ (keys s).toFinset, Sparse.get y k = 1 := by
    rw [← sum_over hy.once (S := (keys s).toFinset) (fun k hk => by simpa using hsub k (by simpa using hk)), hy.total]
  have hup : Sparse.get y 0 ≤ 1 := by
    by_cases hk : (0 : Int) ∈ keys y
    · obtain ⟨e, he, h⟩ := List.mem_map.1 hk
      rw [← h, Sparse.get_of_mem hy.once he]; exact (hy.range e he).2
    · rw [Sparse.get_of_not_mem hk]; exact zero_le_one
  rw [particle_value hm dF dt hs h2 (by simp [Ok, keys]) h0 hlow hup]
  set value := freeValue dt (s.length : α) y (rates (pinned mobility) dF (keys s)) with hvalue
  have hraw : ∀ i ∈ (keys s).toFinset, value i ≤ raw value [] i ∧ (value i < 0 → value i < raw value [] i) := by
    intro i hi
    rcases hcut i (List.mem_toFinset.1 hi) _ rfl with h | ⟨h3, h4⟩
    · exact ⟨h.trans (raw_nonneg value i), fun h' => h'.trans_le (raw_nonneg value i)⟩
    · rw [raw_nil, clamp_mem (tiny_pos.trans h3).le h4, if_pos h3]
      exact ⟨le_rfl, fun h' => absurd (tiny_pos.trans h3) (not_lt.2 h'.le)⟩
  have hgt : 1 < ∑ i ∈ (keys s).toFinset, raw value [] i := by
    have e := free_total (pinned_symm hm) dF dt (s.length : α) y hnd
    rw [htot] at e
    rw [← e]
    obtain ⟨k, hk, hn⟩ := hneg
    exact sum_lt_sum (fun i hi => (hraw i hi).1) ⟨k, List.mem_toFinset.2 hk, (hraw k (List.mem_toFinset.2 hk)).2 hn⟩
  exact div_lt_self (tiny_pos.trans hlow) hgt

/-! ## Witnesses -/

/-- Particle, grain, grain: fields 0, 1, 2 at the nodes 1, 0 and 3, and a boundary between the grains at node 2. -/
def pin (p : Int) : Sparse.Cell ℚ := if p = 1 then [(0, 1)] else if p = 2 then [(1, 1 / 2), (2, 1 / 2)] else if p = 3 then [(2, 1)] else [(1, 1)]

/-- **C76.** One step of the anisotropic sparse Zener example (all energies and mobilities 1, time step and spacing of the example, `eps²/2 = 32/5`, `w = 1/2`) shrinks the
particle at node 1. -/
theorem particle_dissolves :
    (∀ p, Full {0, 1, 2} (pin p)) ∧
    ((anisoRun (line 4) (fun _ => 1) (1 / 100) (fun _ _ => 1) (pinned fun _ _ => 1) (fun _ => 18 / 5) (fun _ => 1 / 2) 1 pin).bind fun r =>
      .ok (decide (Sparse.get (r.1 1) 0 < 1))) = .ok true := by
  refine ⟨fun p => ?_, by decide +kernel⟩
  unfold pin
  split_ifs <;> exact ⟨⟨by unfold Ok; decide +kernel, by decide +kernel, by decide +kernel⟩, by decide +kernel⟩

example : ∃ a b, anisoRun (line 4) (fun _ => 1) (1 / 100) (fun _ _ => 1) (pinned fun _ _ => 1) (fun _ => 18 / 5) (fun _ => 1 / 2) 1000 pin = .ok (a, b) ∧
    ∀ i : Nat, i < 4 → Full {0, 1, 2} (a i) := by
  obtain ⟨a, b, h1, h2, -⟩ := anisoRun_full (line_wf (n := 4) (by decide)) rfl (line_reach (by decide)) (F := {0, 1, 2}) (by decide) (fun _ => 1) (1 / 100)
    (fun _ _ => 1) (pinned_symm (mobility := fun _ _ => 1) fun _ _ => rfl) (fun _ => 18 / 5) (fun _ => 1 / 2) particle_dissolves.1 1000
  exact ⟨a, b, h1, h2⟩

/-- A particle with a grain boundary: nothing is cut off … -/
example : Sparse.get (pairNode [(0, 0), (1, 1), (2, 2)] (pinned fun _ _ => 1) (1 / 100 : ℚ) [(0, 1), (1, 1), (2, 1)] [(0, 1 / 2), (1, 1 / 4), (2, 1 / 4)] []) 0 = 1 / 2 :=
  particle_kept_partial (fun _ _ => rfl) _ _ (by unfold Ok; decide) ⟨by unfold Ok; decide +kernel, by decide +kernel, by decide +kernel⟩ (by decide) (by decide) (by decide +kernel)
    (by rintro k hk v rfl; revert hk; revert k; decide +kernel)

/-- … or something is. -/
example : Sparse.get (pairNode [(0, 0), (1, 1), (2, 90)] (pinned fun _ _ => 1) (1 / 100 : ℚ) [(0, 1), (1, 1), (2, 1)] [(0, 1 / 2), (1, 1 / 4), (2, 1 / 4)] []) 0 < 1 / 2 :=
  particle_shrinks (fun _ _ => rfl) _ _ (by unfold Ok; decide) (by decide) ⟨by unfold Ok; decide +kernel, by decide +kernel, by decide +kernel⟩ (by decide) (by decide) (by decide +kernel)
    (by rintro k hk v rfl; revert hk; revert k; decide +kernel) (by decide +kernel)

end MMSP.SparsePF
