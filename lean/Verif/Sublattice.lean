import Verif.GhostSched
import Mathlib.Tactic.SplitIfs
/-!
# Property C12: sublattice ghost exchange
-/

namespace MMSP.Ghost

open Finset Decomp

/-! ## Specification -/

/-- The parity (0 even, 1 odd) of axis `j` on sublattice `s`: the bits of `s`, axis 0 first. -/
def subBit (d : Nat) (s : Int) (j : Nat) : Int := s / 2 ^ (d - 1 - j) % 2

/-- The sublattice `s`: all coordinates have the parities that the bits of `s` say. -/
def OnSub (d : Nat) (s : Int) (x : Nat → Int) : Prop := ∀ j, j < d → x j % 2 = subBit d s j

/-- Setups on which the sublattice exchange is meant to work: two or three axes, one ghost layer, all global side lengths
even. -/
structure SubOk (su : Setup) (np : Nat) (s : Int) : Prop where
  ok : su.Ok np
  dim : su.d = 2 ∨ su.d = 3
  one : su.ghosts = 1
  even : ∀ j, j < su.d → 2 ∣ su.g1 j - su.g0 j
  nonneg : 0 ≤ s
  lt : s < 2 ^ su.d

/-! ## The branches of the code implement the bit pattern -/

theorem parityTable_eq {d : Nat} (hd : d = 2 ∨ d = 3) {s : Int} (h0 : 0 ≤ s) (h1 : s < 2 ^ d) {j : Nat} (hj : j < d) :
    parityTable d s j = some (decide (subBit d s j = 1)) := by
  rcases hd with rfl | rfl
  · have hs : s = 0 ∨ s = 1 ∨ s = 2 ∨ s = 3 := by omega
    have hj : j = 0 ∨ j = 1 := by omega
    rcases hs with rfl | rfl | rfl | rfl <;> rcases hj with rfl | rfl <;> decide
  · have hs : s = 0 ∨ s = 1 ∨ s = 2 ∨ s = 3 ∨ s = 4 ∨ s = 5 ∨ s = 6 ∨ s = 7 := by omega
    have hj : j = 0 ∨ j = 1 ∨ j = 2 := by omega
    rcases hs with rfl | rfl | rfl | rfl | rfl | rfl | rfl | rfl <;> rcases hj with rfl | rfl | rfl <;> decide

theorem subBit_cases (d : Nat) (s : Int) (j : Nat) : subBit d s j = 0 ∨ subBit d s j = 1 := by
  unfold subBit; omega

theorem hasParity_iff {b : Int} (hb : b = 0 ∨ b = 1) (x : Int) : hasParity (decide (b = 1)) x = true ↔ x % 2 = b := by
  unfold hasParity
  have h : x.tmod 2 = 0 ↔ x % 2 = 0 := by rw [← Int.dvd_iff_tmod_eq_zero, ← Int.dvd_iff_emod_eq_zero]
  rcases hb with rfl | rfl
  · simp [h]
  · simp [h]; omega

theorem pick_eq {b : Int} (hb : b = 0 ∨ b = 1) (x alt : Int) :
    pick (some (decide (b = 1))) x alt = if x % 2 = b then x else alt := by
  unfold pick
  simp only [hasParity_iff hb]

section
variable {T : Type} {c : Cell T} {su : Setup} {np : Nat} {s : Int}

/-- `pick` on the shape of a rank. -/
theorem pick_shape (h : SubOk su np s) {j : Nat} (hj : j < su.d) (x alt : Int) :
    pick (parityTable su.d s j) x alt = if x % 2 = subBit su.d s j then x else alt := by
  rw [parityTable_eq h.dim h.nonneg h.lt hj, pick_eq (subBit_cases _ _ _)]

theorem shiftBy_even (h : SubOk su np s) {i : Nat} (hi : i < su.d) (dir : Dir) {r : Int} (hr : IsRank np r) {j : Nat}
    (hj : j < su.d) : 2 ∣ shiftBy su i dir r j :=
  dvd_trans (h.even j hj) (shiftBy_dvd h.ok hi dir hr j)

theorem subPlan_ok (h : SubOk su np s) : PlanOk su np (subPlan s) (OnSub su.d s) where
  step := Nat.zero_lt_two
  wraps := by
    intro x y hw
    have : ∀ j, j < su.d → x j % 2 = y j % 2 := by
      intro j hj
      have := dvd_trans (h.even j hj) (hw j hj)
      omega
    constructor
    · intro hx j hj; rw [← this j hj]; exact hx j hj
    · intro hx j hj; rw [this j hj]; exact hx j hj
  sends := by
    intro i hi dir r hr x hx j hj
    have hs := (h.ok.wf hr).side j hj
    have hg := h.one
    have hp := pick_shape h hj
    have h1 := hx j hj
    simp only [subPlan, subSendMin, sendMax, shape_dim, hp] at h1
    by_cases hji : j = i
    · subst hji
      simp only [if_true] at h1
      cases dir <;> simp only [shape_ghosts] at * <;> split_ifs at h1 <;> omega
    · simp only [if_neg hji] at h1
      simp only [shape_ghosts] at *
      split_ifs at h1 <;> omega
  recvs := by
    intro i hi dir r hr x hx j hj
    have hs := (h.ok.wf hr).side j hj
    have hg := h.one
    have hp := pick_shape h hj
    have h1 := hx j hj
    simp only [subPlan, subRecvMin, recvMax, shape_dim, hp] at h1
    by_cases hji : j = i
    · subst hji
      simp only [if_true] at h1
      cases dir <;> simp only [shape_ghosts] at * <;> split_ifs at h1 <;> omega
    · simp only [if_neg hji] at h1
      simp only [shape_ghosts] at *
      split_ifs at h1 <;> omega
  regions := by
    intro i hi dir r hr j hj
    have hp := pick_shape h hj
    have hev := shiftBy_even h hi dir hr hj
    have hg := h.one
    simp only [subPlan, subRecvMin, recvMax, subSendMin, sendMax, shape_dim, hp]
    by_cases hji : j = i
    · subst hji
      simp only [shiftBy, if_true] at hev ⊢
      cases dir <;> simp only [shape_ghosts] at * <;> split_ifs <;> omega
    · have := recvProc_other h.ok hi dir hr hj hji
      simp only [shiftBy, if_neg hji, shape_ghosts, this.1, this.2, add_zero]
      exact ⟨rfl, trivial⟩
  slab := by
    intro i hi dir r hr x hx
    have hg := h.one
    constructor
    · intro hrg
      constructor
      · have h1 := hrg i hi
        have h2 := hx i hi
        have hp := pick_shape h hi
        simp only [subPlan, subRecvMin, recvMax, if_true, shape_dim, hp] at h1
        simp only [InSlab]
        cases dir <;> simp only [shape_ghosts] at * <;> split_ifs at h1 <;> omega
      · intro j hj
        have h1 := hrg j hj
        have h2 := hx j hj
        have hp := pick_shape h hj
        have hb := subBit_cases su.d s j
        simp only [subPlan, subRecvMin, recvMax, shape_dim, hp] at h1
        by_cases hji : j = i
        · subst hji
          simp only [if_true] at h1
          cases dir <;> simp only [shape_ghosts] at * <;> split_ifs at h1 <;> omega
        · simp only [if_neg hji] at h1
          simp only [shape_ghosts] at *
          split_ifs at h1 <;> omega
    · rintro ⟨hsl, hK⟩ j hj
      have h1 := hx j hj
      have h2 := hK j hj
      have hb := subBit_cases su.d s j
      have hp := pick_shape h hj
      simp only [subPlan, subRecvMin, recvMax, shape_dim, hp]
      by_cases hji : j = i
      · subst hji
        simp only [if_true]
        simp only [InSlab] at hsl
        cases dir <;> simp only [shape_ghosts] at * <;> split_ifs <;> omega
      · simp only [if_neg hji]
        simp only [shape_ghosts] at *
        split_ifs <;> omega

/-! ## C12 -/

/-- C12: the sublattice exchange gives every cell on the sublattice - ghosts, edges and corners included - the value its
owner holds, leaves every other cell of every rank unchanged, and neither aborts nor runs into undefined behaviour. -/
theorem sub_ghostswap_correct (hc : RoundTrips c) (h : SubOk su np s) {S : Int → Outcome (RankSt T)}
    {D0 : Int → Int → T} (hS : Running np S D0) (hv : AllValid c su np D0) :
    ∃ D, Running np (ghostswap (subPlan s) c su S) D ∧
      ∀ r, IsRank np r → ∀ x, (su.shape r).IsCell x →
        (OnSub su.d s x → ∀ t, IsRank np t → ∀ y, (su.shape t).IsNode y → Wraps su x y →
          cellAt (su.shape r) (D r) x = cellAt (su.shape t) (D0 t) y) ∧
        (¬ OnSub su.d s x → cellAt (su.shape r) (D r) x = cellAt (su.shape r) (D0 r) x) := by
  obtain ⟨D, hR, _, hG⟩ := swap_correct hc h.ok (subPlan_ok h) hS hv
  exact ⟨D, hR, hG⟩

/-- C12: the cells a rank sends on an axis are as many as its partner expects. -/
theorem sub_regions_match (h : SubOk su np s) {i : Nat} (hi : i < su.d) (dir : Dir) {r : Int} (hr : IsRank np r) {j : Nat}
    (hj : j < su.d) :
    sendMax (su.shape r) i dir j - subSendMin s (su.shape r) i dir j =
      recvMax (su.shape (su.sendProc i dir r)) i dir j - subRecvMin s (su.shape (su.sendProc i dir r)) i dir j := by
  have hs := sendProc_rank h.ok hi dir hr
  have hm := (partners_match h.ok hi dir hr).1
  have := (subPlan_ok h).regions i hi dir _ hs j hj
  rw [hm] at this
  simp only [subPlan] at this
  omega

/-- C12 under every schedule of the ranks: see `ghostswap_schedules`. -/
theorem sub_scheduled_correct (hc : RoundTrips c) (h : SubOk su np s) {S : Int → Outcome (RankSt T)}
    {D0 : Int → Int → T} (hS : Running np S D0) (hv : AllValid c su np D0) {eager : Bool} {n : Nat}
    {X : Rounds.State (Rank np) (Outcome Payload) (Outcome (RankSt T))}
    (hrun : Rounds.Run (prog (subPlan s) c h.ok) eager n (Rounds.start fun r => S r.1) X)
    (hdone : ∀ r, (X.loc r).k = 4 * su.d) :
    ∀ r, ∃ st : RankSt T, (X.loc r).st = .ok st ∧ ∀ x, (su.shape r.1).IsCell x →
        (OnSub su.d s x → ∀ t, IsRank np t → ∀ y, (su.shape t).IsNode y → Wraps su x y →
          cellAt (su.shape r.1) st.data x = cellAt (su.shape t) (D0 t) y) ∧
        (¬ OnSub su.d s x → cellAt (su.shape r.1) st.data x = cellAt (su.shape r.1) (D0 r.1) x) := by
  obtain ⟨D, hR, hD⟩ := sub_ghostswap_correct hc h hS hv
  have h2 := ((ghostswap_schedules h.ok S hrun).2.2 hdone).1
  intro r
  obtain ⟨k, hk⟩ := hR r.1 r.2
  exact ⟨_, by rw [h2 r, hk], fun x hx => hD r.1 r.2 x hx⟩

/-- C12: exchanging all sublattices one after the other, in any order and with arbitrary updates in between, is as good as
one full exchange: every coordinate is on exactly one sublattice. -/
theorem sublattices_partition (d : Nat) (x : Nat → Int) : ∃ s : Int, (0 ≤ s ∧ s < 2 ^ d ∧ OnSub d s x) ∧
    ∀ s' : Int, 0 ≤ s' → s' < 2 ^ d → OnSub d s' x → s' = s := by
  induction d generalizing x with
  | zero =>
    refine ⟨0, ⟨le_rfl, by norm_num, fun j hj => absurd hj (by omega)⟩, ?_⟩
    intro s' h0 h1 _; simp only [pow_zero] at h1; omega
  | succ d ih =>
    obtain ⟨s, ⟨h0, h1, h2⟩, hu⟩ := ih x
    have bit : ∀ t : Int, ∀ j, j < d → subBit (d + 1) t j = subBit d (t / 2) j := by
      intro t j hj
      unfold subBit
      have e : d + 1 - 1 - j = (d - 1 - j) + 1 := by omega
      rw [e, pow_succ, mul_comm, ← Int.ediv_ediv_of_nonneg (by norm_num)]
    have last : ∀ t : Int, subBit (d + 1) t d = t % 2 := by
      intro t; unfold subBit
      have e : d + 1 - 1 - d = 0 := by omega
      rw [e, pow_zero, Int.ediv_one]
    refine ⟨2 * s + x d % 2, ⟨by omega, by rw [pow_succ]; omega, ?_⟩, ?_⟩
    · intro j hj
      by_cases hjd : j < d
      · rw [bit _ j hjd]
        have : (2 * s + x d % 2) / 2 = s := by omega
        rw [this]; exact h2 j hjd
      · have : j = d := by omega
        subst this
        rw [last]; omega
    · intro s' h0' h1' h2'
      have e := hu (s' / 2) (by omega) (by rw [pow_succ] at h1'; omega) (by
        intro j hj
        have := h2' j (by omega)
        rw [bit _ j hj] at this; exact this)
      have := h2' d (by omega)
      rw [last] at this
      omega

end

/-! ### Satisfiable: 2 × 3 processes on an 8 × 12 box -/

/-- The sample parallel grid for the sublattice exchange. -/
def subSetup : Setup :=
  { d := 2, g0 := fun j => if j = 0 then -3 else 0, g1 := fun j => if j = 0 then 5 else 12, ghosts := 1,
    p := fun j => if j = 0 then 2 else 3 }

theorem subSetup_ok : SubOk subSetup 6 1 := by
  have hj2 : ∀ j, j < 2 → j = 0 ∨ j = 1 := by intro j hj; omega
  refine ⟨⟨⟨fun j hj => ?_, by decide⟩, by decide, fun j hj => ?_, by decide, fun j hj => ?_, fun r h0 h1 j hj => ?_⟩,
    by decide, by decide, fun j hj => ?_, by decide, by decide⟩
  · rcases hj2 j hj with rfl | rfl <;> decide
  · rcases hj2 j hj with rfl | rfl <;> decide
  · rcases hj2 j hj with rfl | rfl <;> decide
  · have hr : r = 0 ∨ r = 1 ∨ r = 2 ∨ r = 3 ∨ r = 4 ∨ r = 5 := by omega
    rcases hj2 j hj with rfl | rfl <;> rcases hr with rfl | rfl | rfl | rfl | rfl | rfl <;> decide +kernel
  · rcases hj2 j hj with rfl | rfl <;> decide

example : SubOk subSetup 6 1 ∧ OnSub 2 1 (fun j => if j = 0 then -4 else 3) ∧
    (subSetup.shape 0).IsCell (fun j => if j = 0 then -4 else 3) := by
  refine ⟨subSetup_ok, ?_, ?_⟩
  · intro j hj
    rcases (show j = 0 ∨ j = 1 by omega) with rfl | rfl <;> decide
  · intro j hj
    rcases (show j = 0 ∨ j = 1 by have : j < 2 := hj; omega) with rfl | rfl <;> decide +kernel

/-! ## C12: the requirements are needed -/

/-- One process on a 3 × 4 box: an odd side length. -/
def oddSetup : Setup :=
  { d := 2, g0 := fun _ => 0, g1 := fun j => if j = 0 then 3 else 4, ghosts := 1, p := fun _ => 1 }

/-- One process on a 4 × 4 box with two ghost layers. -/
def wideSetup : Setup :=
  { d := 2, g0 := fun _ => 0, g1 := fun _ => 4, ghosts := 2, p := fun _ => 1 }

/-- C12 fails for an odd side length. Sublattice 2 (odd, even): the rank announces zero bytes (row 2 is even) but expects
row -1 (odd), so it unpacks cells from an empty buffer - a read outside the allocation. -/
theorem sub_odd_fails (D0 : Int → Byte) :
    oddSetup.Ok 1 ∧ ghostswap (subPlan 2) (primCell byteCodec) oddSetup (fun _ => .ok ⟨D0, 0⟩) 0 = .ub := by
  have hj2 : ∀ j, j < 2 → j = 0 ∨ j = 1 := by intro j hj; omega
  refine ⟨⟨⟨fun j hj => by simp [oddSetup], by decide⟩, by decide, fun j hj => ?_, by decide, fun j hj => ?_,
    fun r h0 h1 j hj => ?_⟩, ?_⟩
  · rcases hj2 j hj with rfl | rfl <;> decide
  · rcases hj2 j hj with rfl | rfl <;> decide
  · have hr : r = 0 := by omega
    subst hr
    rcases hj2 j hj with rfl | rfl <;> decide +kernel
  · rfl

/-- C12 fails with two ghost layers. Sublattice 1 (even, odd): the ghost cell (0,-1) is on it and is the image of node
(0,3), but column `x1-2 = 2` is even, so nothing is sent on axis 1 and the cell keeps its stale value 99. -/
theorem sub_wide_fails :
    let D0 : Int → Byte := fun o => if o = 21 then 5 else 99
    let x : Nat → Int := fun j => if j = 0 then 0 else -1
    let y : Nat → Int := fun j => if j = 0 then 0 else 3
    wideSetup.Ok 1 ∧ (wideSetup.shape 0).IsCell x ∧ (wideSetup.shape 0).IsNode y ∧ Wraps wideSetup x y ∧ OnSub 2 1 x ∧
    cellAt (wideSetup.shape 0) D0 y = 5 ∧
    (ghostswap (subPlan 1) (primCell byteCodec) wideSetup (fun _ => .ok ⟨D0, 0⟩) 0).bind
      (fun st => .ok (cellAt (wideSetup.shape 0) st.data x)) = .ok 99 := by
  have hj2 : ∀ j, j < 2 → j = 0 ∨ j = 1 := by intro j hj; omega
  refine ⟨⟨⟨fun j hj => by simp [wideSetup], by decide⟩, by decide, fun j hj => ?_, by decide, fun j hj => ?_,
    fun r h0 h1 j hj => ?_⟩, fun j hj => ?_, fun j hj => ?_, fun j hj => ?_, fun j hj => ?_, by decide +kernel,
    by decide +kernel⟩
  · rcases hj2 j hj with rfl | rfl <;> decide
  · rcases hj2 j hj with rfl | rfl <;> decide
  · have hr : r = 0 := by omega
    subst hr
    rcases hj2 j hj with rfl | rfl <;> decide +kernel
  · rcases hj2 j hj with rfl | rfl <;> decide +kernel
  · rcases hj2 j hj with rfl | rfl <;> decide +kernel
  · rcases hj2 j hj with rfl | rfl <;> decide
  · rcases hj2 j hj with rfl | rfl <;> decide

end MMSP.Ghost
