import Verif.Ghost
import Verif.DecompProps
import Verif.BufferProps
/-!
# Properties C09, C10: ghost exchange
-/

namespace MMSP.Ghost

open Finset Decomp

/-! ## Specification -/

/-- A usable parallel grid: all processes used, no empty box, and the ghost width not larger than any local width. -/
structure Setup.Ok (su : Setup) (np : Nat) : Prop where
  grid : ProcGrid np su.d su.p
  dim : 0 < su.d
  box : ∀ j, j < su.d → su.g0 j ≤ su.g1 j
  ghosts : 0 ≤ su.ghosts
  fits : ∀ j, j < su.d → su.p j ≤ su.g1 j - su.g0 j
  thick : ∀ r : Int, 0 ≤ r → r < np → ∀ j, j < su.d → su.ghosts ≤ (su.shape r).x1 j - (su.shape r).x0 j

/-- `r` is a rank. -/
def IsRank (np : Nat) (r : Int) : Prop := 0 ≤ r ∧ r < np

/-- `y` is the coordinate `x` wrapped periodically around the global box. -/
def Wraps (su : Setup) (x y : Nat → Int) : Prop := ∀ j, j < su.d → (su.g1 j - su.g0 j) ∣ (x j - y j)

/-- Every rank is running normally with cell array `D r`. -/
def Running {T : Type} (np : Nat) (S : Int → Outcome (RankSt T)) (D : Int → Int → T) : Prop :=
  ∀ r, IsRank np r → ∃ n, S r = .ok ⟨D r, n⟩

/-- All cell values are values of the cell type. -/
def AllValid {T : Type} (c : Cell T) (su : Setup) (np : Nat) (D : Int → Int → T) : Prop :=
  ∀ r, IsRank np r → ∀ o, 0 ≤ o → o < (su.shape r).cells → c.Valid (D r o)

section
variable {T : Type} {c : Cell T} {su : Setup} {np : Nat}

theorem shape_x0 (r : Int) (j : Nat) : (su.shape r).x0 j = (lim su.d su.g0 su.g1 su.p r j).1 := rfl
theorem shape_x1 (r : Int) (j : Nat) : (su.shape r).x1 j = (lim su.d su.g0 su.g1 su.p r j).2 := rfl
@[simp] theorem shape_dim (r : Int) : (su.shape r).dim = su.d := rfl
@[simp] theorem shape_ghosts (r : Int) : (su.shape r).ghosts = su.ghosts := rfl

theorem Setup.Ok.wf (h : su.Ok np) {r : Int} (hr : IsRank np r) : (su.shape r).Wf :=
  ⟨h.dim, (nonempty_iff h.grid h.box).mpr h.fits r hr.1 hr.2, h.ghosts⟩

theorem recvProc_rank (h : su.Ok np) {i : Nat} (hi : i < su.d) (dir : Dir) {r : Int} (hr : IsRank np r) :
    IsRank np (su.recvProc i dir r) := by
  cases dir
  · have := below_spec h.grid hr.1 hr.2 hi; exact ⟨this.1, this.2.1⟩
  · have := above_spec h.grid hr.1 hr.2 hi; exact ⟨this.1, this.2.1⟩

/-- Limits of the partner on the other axes. -/
theorem recvProc_other (h : su.Ok np) {i : Nat} (hi : i < su.d) (dir : Dir) {r : Int} (hr : IsRank np r) {j : Nat}
    (hj : j < su.d) (hne : j ≠ i) :
    (su.shape (su.recvProc i dir r)).x0 j = (su.shape r).x0 j ∧ (su.shape (su.recvProc i dir r)).x1 j = (su.shape r).x1 j := by
  simp only [shape_x0, shape_x1]
  cases dir
  · have := (below_adjacent (g0 := su.g0) (g1 := su.g1) h.grid h.box hr.1 hr.2 hi).2 j hj hne
    simp only [Setup.recvProc]; rw [this]; exact ⟨rfl, rfl⟩
  · have := (above_adjacent (g0 := su.g0) (g1 := su.g1) h.grid h.box hr.1 hr.2 hi).2 j hj hne
    simp only [Setup.recvProc]; rw [this]; exact ⟨rfl, rfl⟩

/-- Translation from the sending partner's coordinates to the receiver's. -/
def shiftBy (su : Setup) (i : Nat) (dir : Dir) (r : Int) : Nat → Int := fun j =>
  if j = i then
    match dir with
    | .up => (su.shape r).x0 i - (su.shape (su.recvProc i dir r)).x1 i
    | .down => (su.shape r).x1 i - (su.shape (su.recvProc i dir r)).x0 i
  else 0

/-- The receiver's coordinate is in the slab that the exchange fills. -/
def InSlab (su : Setup) (i : Nat) (dir : Dir) (r : Int) (x : Nat → Int) : Prop :=
  match dir with
  | .up => x i < (su.shape r).x0 i
  | .down => (su.shape r).x1 i ≤ x i

instance (su : Setup) (i : Nat) (dir : Dir) (r : Int) (x : Nat → Int) : Decidable (InSlab su i dir r x) := by
  unfold InSlab; cases dir <;> infer_instance

/-- What makes an exchange plan work: it transfers exactly the cells of the slab in the class `K`, between matching
regions. -/
structure PlanOk (su : Setup) (np : Nat) (pl : Plan) (K : (Nat → Int) → Prop) : Prop where
  step : 0 < pl.step
  wraps : ∀ x y, Wraps su x y → (K x ↔ K y)
  sends : ∀ i, i < su.d → ∀ dir r, IsRank np r →
    RegionFits (su.shape r) pl.step (pl.sMin (su.shape r) i dir) (pl.sMax (su.shape r) i dir)
  recvs : ∀ i, i < su.d → ∀ dir r, IsRank np r →
    RegionFits (su.shape r) pl.step (pl.rMin (su.shape r) i dir) (pl.rMax (su.shape r) i dir)
  regions : ∀ i, i < su.d → ∀ dir r, IsRank np r → ∀ j, j < su.d →
    pl.rMin (su.shape r) i dir j = pl.sMin (su.shape (su.recvProc i dir r)) i dir j + shiftBy su i dir r j ∧
    pl.rMax (su.shape r) i dir j = pl.sMax (su.shape (su.recvProc i dir r)) i dir j + shiftBy su i dir r j
  slab : ∀ i, i < su.d → ∀ dir r, IsRank np r → ∀ x, (su.shape r).IsCell x →
    (InRegion su.d pl.step (pl.rMin (su.shape r) i dir) (pl.rMax (su.shape r) i dir) x ↔ InSlab su i dir r x ∧ K x)

variable {pl : Plan} {K : (Nat → Int) → Prop}

/-- Effect of one exchange (byte counts, then bytes) on all ranks: every cell of the filled region takes the partner's
value at the corresponding coordinate, all other cells keep theirs; nobody aborts or runs into undefined behaviour. -/
theorem exchange_spec (hc : RoundTrips c) (h : su.Ok np) (hpl : PlanOk su np pl K) {i : Nat} (hi : i < su.d) (dir : Dir)
    {S : Int → Outcome (RankSt T)} {D : Int → Int → T} (hS : Running np S D) (hv : AllValid c su np D) :
    ∃ D', Running np (syncRound pl c su ⟨i, dir, true⟩ (syncRound pl c su ⟨i, dir, false⟩ S)) D' ∧
      AllValid c su np D' ∧
      ∀ r, IsRank np r → ∀ x, (su.shape r).IsCell x →
        (InSlab su i dir r x ∧ K x →
          (su.shape (su.recvProc i dir r)).IsCell (fun j => x j - shiftBy su i dir r j) ∧
          cellAt (su.shape r) (D' r) x =
            cellAt (su.shape (su.recvProc i dir r)) (D (su.recvProc i dir r)) (fun j => x j - shiftBy su i dir r j)) ∧
        (¬ (InSlab su i dir r x ∧ K x) → cellAt (su.shape r) (D' r) x = cellAt (su.shape r) (D r) x) := by
  -- what each rank does
  have key : ∀ r, ∃ D'r : Int → T, IsRank np r →
      (∃ n, syncRound pl c su ⟨i, dir, true⟩ (syncRound pl c su ⟨i, dir, false⟩ S) r = .ok ⟨D'r, n⟩) ∧
      ∀ x, (su.shape r).IsCell x →
        (InSlab su i dir r x ∧ K x →
          (su.shape (su.recvProc i dir r)).IsCell (fun j => x j - shiftBy su i dir r j) ∧
          cellAt (su.shape r) D'r x =
            cellAt (su.shape (su.recvProc i dir r)) (D (su.recvProc i dir r)) (fun j => x j - shiftBy su i dir r j)) ∧
        (¬ (InSlab su i dir r x ∧ K x) → cellAt (su.shape r) D'r x = cellAt (su.shape r) (D r) x) := by
    intro r
    by_cases hr : IsRank np r
    swap
    · exact ⟨D r, fun h => absurd h hr⟩
    -- state after the byte count round, for any rank
    have hsz : ∀ r, IsRank np r → ∃ buf,
        toBuffer c (su.shape (su.recvProc i dir r)) pl.step (pl.sMin (su.shape (su.recvProc i dir r)) i dir)
          (pl.sMax (su.shape (su.recvProc i dir r)) i dir) (D (su.recvProc i dir r)) = .ok buf ∧
        bufferSize c (su.shape (su.recvProc i dir r)) pl.step (pl.sMin (su.shape (su.recvProc i dir r)) i dir)
          (pl.sMax (su.shape (su.recvProc i dir r)) i dir) (D (su.recvProc i dir r)) = .ok buf.length ∧
        syncRound pl c su ⟨i, dir, false⟩ S r = .ok ⟨D r, buf.length⟩ := by
      intro r hr
      have hq := recvProc_rank h hi dir hr
      obtain ⟨buf, hb, hn⟩ := region_pack hc (h.wf hq) hpl.step (hpl.sends i hi dir _ hq) (data := D (su.recvProc i dir r))
        (fun o h0 h1 => hv _ hq o h0 h1)
      obtain ⟨n1, e1⟩ := hS r hr
      obtain ⟨n2, e2⟩ := hS _ hq
      refine ⟨buf, hb, hn, ?_⟩
      simp only [syncRound, e1, e2, Outcome.ok_bind, payload, Bool.false_eq_true, if_false, hn, consume]
    obtain ⟨buf, hb, hn, hst⟩ := hsz r hr
    have hq := recvProc_rank h hi dir hr
    obtain ⟨_, _, _, hst2⟩ := hsz _ hq
    let q := su.recvProc i dir r
    have hreg := hpl.regions i hi dir r hr
    have hfd : RegionFits (su.shape r) pl.step (fun j => pl.sMin (su.shape q) i dir j + shiftBy su i dir r j)
        (fun j => pl.sMax (su.shape q) i dir j + shiftBy su i dir r j) := by
      intro x hx
      apply hpl.recvs i hi dir r hr x
      intro j hj
      have h1 := hx j hj
      have h2 := hreg j hj
      rw [h2.1, h2.2]; exact h1
    obtain ⟨buf', dst', hb', hd', hin, hout⟩ := region_roundTrip hc (h.wf hq) (h.wf hr) (by simp) hpl.step
      (hpl.sends i hi dir _ hq) hfd (dst := D r) (fun o h0 h1 => hv _ hq o h0 h1) []
    rw [hb] at hb'
    obtain rfl : buf = buf' := by simpa using hb'
    refine ⟨dst', fun _ => ⟨⟨buf.length, ?_⟩, ?_⟩⟩
    · rw [syncRound, hst, Outcome.ok_bind]
      show ((syncRound pl c su ⟨i, dir, false⟩ S (su.recvProc i dir r)).bind fun src => _) = _
      rw [hst2]
      simp only [Outcome.ok_bind, payload, if_true, hn, hb, le_refl, consume, gt_iff_lt, lt_irrefl, if_false]
      rw [fromBuffer_congr (mn' := fun j => pl.sMin (su.shape q) i dir j + shiftBy su i dir r j)
        (mx' := fun j => pl.sMax (su.shape q) i dir j + shiftBy su i dir r j) hreg]
      rw [List.append_nil] at hd'
      rw [hd']
      rfl
    · intro x hx
      rw [← hpl.slab i hi dir r hr x hx]
      constructor
      · intro hrg
        have hsr : InRegion su.d pl.step (pl.sMin (su.shape q) i dir) (pl.sMax (su.shape q) i dir)
            (fun j => x j - shiftBy su i dir r j) := by
          intro j hj
          have h1 := hrg j hj
          have h2 := hreg j hj
          rw [h2.1, h2.2] at h1
          refine ⟨by beta_reduce; simp only [q]; omega, by beta_reduce; simp only [q]; omega, ?_⟩
          have e : x j - shiftBy su i dir r j - pl.sMin (su.shape q) i dir j =
            x j - (pl.sMin (su.shape q) i dir j + shiftBy su i dir r j) := by ring
          rw [e]; exact h1.2.2
        refine ⟨hpl.sends i hi dir _ hq _ hsr, ?_⟩
        have h3 := hin _ hsr
        rw [← h3]
        unfold cellAt
        congr 1
        apply rawOffset_congr
        intro j _
        ring
      · intro hrg
        apply hout x hx
        intro hreg2
        apply hrg
        intro j hj
        have h1 := hreg2 j hj
        have h2 := hreg j hj
        rw [h2.1, h2.2]; exact h1
  choose D' hD' using key
  refine ⟨D', fun r hr => (hD' r hr).1, ?_, fun r hr => (hD' r hr).2⟩
  intro r hr o h0 h1
  obtain ⟨x, hx, rfl⟩ := Shape.rawOffset_surj (h.wf hr) h0 h1
  have h2 := (hD' r hr).2 x hx
  unfold cellAt at h2
  by_cases hrg : InSlab su i dir r x ∧ K x
  · obtain ⟨hcell, he⟩ := h2.1 hrg
    rw [he]
    have hq := recvProc_rank h hi dir hr
    have hb := Shape.rawOffset_bounds (h.wf hq) hcell
    exact hv _ hq _ hb.1 hb.2
  · rw [h2.2 hrg]
    have hb := Shape.rawOffset_bounds (h.wf hr) hx
    exact hv _ hr _ hb.1 hb.2

/-! ## The invariant -/

/-- Cells already correct: ghosts included on axes below `i`, `a`/`b` ghost layers on axis `i`, own nodes above. -/
def Zone (su : Setup) (i : Nat) (a b : Int) (r : Int) (x : Nat → Int) : Prop :=
  ∀ j, j < su.d →
    (j < i → (su.shape r).x0 j - su.ghosts ≤ x j ∧ x j < (su.shape r).x1 j + su.ghosts) ∧
    (j = i → (su.shape r).x0 j - a ≤ x j ∧ x j < (su.shape r).x1 j + b) ∧
    (i < j → (su.shape r).x0 j ≤ x j ∧ x j < (su.shape r).x1 j)

/-- All cells of the zone and class hold the owner's original value; cells of other classes are as at the start. -/
def Good (su : Setup) (np : Nat) (K : (Nat → Int) → Prop) (D0 D : Int → Int → T) (i : Nat) (a b : Int) : Prop :=
  (∀ r, IsRank np r → ∀ x, Zone su i a b r x → K x → ∀ s, IsRank np s → ∀ y, (su.shape s).IsNode y → Wraps su x y →
    cellAt (su.shape r) (D r) x = cellAt (su.shape s) (D0 s) y) ∧
  (∀ r, IsRank np r → ∀ x, (su.shape r).IsCell x → ¬ K x →
    cellAt (su.shape r) (D r) x = cellAt (su.shape r) (D0 r) x)

theorem isNode_global (h : su.Ok np) {r : Int} (hr : IsRank np r) {x : Nat → Int} (hx : (su.shape r).IsNode x) :
    InGlobal su.d su.g0 su.g1 x :=
  local_in_global h.grid h.box hr.1 hr.2 hx

/-- Two own nodes that wrap to each other are the same node of the same rank. -/
theorem wraps_nodes (h : su.Ok np) {r s : Int} (hr : IsRank np r) (hs : IsRank np s) {x y : Nat → Int}
    (hx : (su.shape r).IsNode x) (hy : (su.shape s).IsNode y) (hw : Wraps su x y) :
    r = s ∧ ∀ j, j < su.d → x j = y j := by
  have hgx := isNode_global h hr hx
  have hgy := isNode_global h hs hy
  have hxy : ∀ j, j < su.d → x j = y j := by
    intro j hj
    have h1 := hgx j hj
    have h2 := hgy j hj
    have := Int.eq_zero_of_abs_lt_dvd (hw j hj) (by rw [abs_lt]; omega)
    omega
  obtain ⟨t, _, ht⟩ := partition h.grid h.box hgx
  have e1 := ht r hr.1 hr.2 hx
  have e2 := ht s hs.1 hs.2 (by intro j hj; rw [hxy j hj]; exact hy j hj)
  exact ⟨e1.trans e2.symm, hxy⟩

theorem good_init (h : su.Ok np) (D : Int → Int → T) : Good su np K D D 0 0 0 := by
  refine ⟨?_, fun _ _ _ _ _ => rfl⟩
  intro r hr x hx _ s hs y hy hw
  have hx' : (su.shape r).IsNode x := by
    intro j hj
    have := hx j hj
    by_cases hj0 : j = 0
    · have := this.2.1 hj0; omega
    · exact this.2.2 (by omega)
  obtain ⟨rfl, hxy⟩ := wraps_nodes h hr hs hx' hy hw
  unfold cellAt
  rw [rawOffset_congr (g := su.shape r) (x := x) (y := y) hxy]

theorem good_next {D0 D : Int → Int → T} {i : Nat} (h : Good su np K D0 D i su.ghosts su.ghosts) :
    Good su np K D0 D (i + 1) 0 0 := by
  refine ⟨?_, h.2⟩
  intro r hr x hx hK s hs y hy hw
  apply h.1 r hr x _ hK s hs y hy hw
  intro j hj
  have := hx j hj
  refine ⟨fun hlt => this.1 (by omega), fun he => this.1 (by omega), fun hlt => ?_⟩
  by_cases hj1 : j = i + 1
  · have := this.2.1 hj1; omega
  · exact this.2.2 (by omega)

/-- The translation wraps around the global box. -/
theorem shiftBy_dvd (h : su.Ok np) {i : Nat} (hi : i < su.d) (dir : Dir) {r : Int} (hr : IsRank np r) :
    ∀ j, (su.g1 j - su.g0 j) ∣ shiftBy su i dir r j := by
  intro j
  simp only [shiftBy]
  by_cases hji : j = i
  · subst hji
    simp only [if_true]
    cases dir
    · have := (below_adjacent (g0 := su.g0) (g1 := su.g1) h.grid h.box hr.1 hr.2 hi).1
      simp only [shape_x0, shape_x1, Setup.recvProc]
      rcases this with ⟨_, he⟩ | ⟨_, he, he'⟩
      · rw [he]; exact ⟨0, by ring⟩
      · rw [he, he']; exact ⟨-1, by ring⟩
    · have := (above_adjacent (g0 := su.g0) (g1 := su.g1) h.grid h.box hr.1 hr.2 hi).1
      simp only [shape_x0, shape_x1, Setup.recvProc]
      rcases this with ⟨_, he⟩ | ⟨_, he, he'⟩
      · rw [he]; exact ⟨0, by ring⟩
      · rw [he, he']
  · rw [if_neg hji]; exact dvd_zero _

theorem good_exchange (hc : RoundTrips c) (h : su.Ok np) (hpl : PlanOk su np pl K) {i : Nat} (hi : i < su.d) (dir : Dir)
    {a b a' b' : Int}
    (hdir : match dir with
      | .up => a = 0 ∧ b = 0 ∧ a' = su.ghosts ∧ b' = 0
      | .down => a = su.ghosts ∧ b = 0 ∧ a' = su.ghosts ∧ b' = su.ghosts)
    {S : Int → Outcome (RankSt T)} {D0 D : Int → Int → T} (hS : Running np S D) (hv : AllValid c su np D)
    (hgood : Good su np K D0 D i a b) :
    ∃ D', Running np (syncRound pl c su ⟨i, dir, true⟩ (syncRound pl c su ⟨i, dir, false⟩ S)) D' ∧
      AllValid c su np D' ∧ Good su np K D0 D' i a' b' := by
  obtain ⟨D', hR, hV, hD⟩ := exchange_spec hc h hpl hi dir hS hv
  refine ⟨D', hR, hV, ?_, ?_⟩
  swap
  · intro r hr x hx hK
    rw [(hD r hr x hx).2 (fun hc => hK hc.2)]
    exact hgood.2 r hr x hx hK
  intro r hr x hx hK s hs y hy hw
  have hg := h.ghosts
  have hcell : (su.shape r).IsCell x := by
    intro j hj
    have h1 := hx j hj
    simp only [shape_ghosts]
    rcases Nat.lt_trichotomy j i with hlt | heq | hgt
    · exact h1.1 hlt
    · have := h1.2.1 heq
      cases dir <;> simp only at hdir <;> omega
    · have := h1.2.2 hgt; omega
  have hq := recvProc_rank h hi dir hr
  by_cases hsl : InSlab su i dir r x
  · rw [((hD r hr x hcell).1 ⟨hsl, hK⟩).2]
    have hws : Wraps su x (fun j => x j - shiftBy su i dir r j) := by
      intro j _
      have := shiftBy_dvd h hi dir hr j
      have e : x j - (x j - shiftBy su i dir r j) = shiftBy su i dir r j := by ring
      rwa [e]
    apply hgood.1 _ hq _ _ ((hpl.wraps _ _ hws).mp hK) s hs y hy
    · intro j hj
      have h3 := dvd_sub (hw j hj) (hws j hj)
      have e : x j - y j - (x j - (x j - shiftBy su i dir r j)) = x j - shiftBy su i dir r j - y j := by ring
      rwa [e] at h3
    · intro j hj
      have h1 := hx j hj
      have hthick := h.thick _ hq.1 hq.2 j hj
      have hcj := hcell j hj
      by_cases hji : j = i
      · subst hji
        refine ⟨fun hlt => by omega, fun _ => ?_, fun hlt => by omega⟩
        simp only [shiftBy, if_true]
        simp only [InSlab] at hsl
        cases dir <;> simp only [shape_ghosts] at * <;> omega
      · have ho := recvProc_other h hi dir hr hj hji
        simp only [shiftBy, if_neg hji, ho.1, ho.2, sub_zero]
        exact ⟨h1.1, fun he => absurd he hji, h1.2.2⟩
  · rw [(hD r hr x hcell).2 (fun hc => hsl hc.1)]
    apply hgood.1 r hr x _ hK s hs y hy hw
    intro j hj
    have h1 := hx j hj
    refine ⟨h1.1, fun he => ?_, h1.2.2⟩
    have h2 := h1.2.1 he
    subst he
    simp only [InSlab] at hsl
    cases dir <;> simp only at hsl hdir <;> omega

theorem good_axes (hc : RoundTrips c) (h : su.Ok np) (hpl : PlanOk su np pl K) {S : Int → Outcome (RankSt T)}
    {D0 : Int → Int → T} (hS : Running np S D0) (hv : AllValid c su np D0) {n : Nat} (hn : n ≤ su.d) :
    ∃ D, Running np ((rounds n).foldl (fun S rd => syncRound pl c su rd S) S) D ∧ AllValid c su np D ∧
      Good su np K D0 D n 0 0 := by
  induction n with
  | zero => exact ⟨D0, hS, hv, good_init h D0⟩
  | succ n ih =>
    obtain ⟨D, hR, hV, hG⟩ := ih (by omega)
    obtain ⟨D1, hR1, hV1, hG1⟩ := good_exchange hc h hpl (i := n) (by omega) .up ⟨rfl, rfl, rfl, rfl⟩ hR hV hG
    obtain ⟨D2, hR2, hV2, hG2⟩ := good_exchange hc h hpl (i := n) (by omega) .down ⟨rfl, rfl, rfl, rfl⟩ hR1 hV1 hG1
    refine ⟨D2, ?_, hV2, good_next hG2⟩
    have e : rounds (n + 1) = rounds n ++ [⟨n, .up, false⟩, ⟨n, .up, true⟩, ⟨n, .down, false⟩, ⟨n, .down, true⟩] := by
      unfold rounds
      rw [List.range_succ, List.flatMap_append]; rfl
    rw [e, List.foldl_append]
    exact hR2

/-- Both kinds of exchange: cells of the class get the owner's value, all others are untouched. -/
theorem swap_correct (hc : RoundTrips c) (h : su.Ok np) (hpl : PlanOk su np pl K) {S : Int → Outcome (RankSt T)}
    {D0 : Int → Int → T} (hS : Running np S D0) (hv : AllValid c su np D0) :
    ∃ D, Running np (ghostswap pl c su S) D ∧ AllValid c su np D ∧
      ∀ r, IsRank np r → ∀ x, (su.shape r).IsCell x →
        (K x → ∀ s, IsRank np s → ∀ y, (su.shape s).IsNode y → Wraps su x y →
          cellAt (su.shape r) (D r) x = cellAt (su.shape s) (D0 s) y) ∧
        (¬ K x → cellAt (su.shape r) (D r) x = cellAt (su.shape r) (D0 r) x) := by
  obtain ⟨D, hR, hV, hG⟩ := good_axes hc h hpl hS hv (n := su.d) le_rfl
  refine ⟨D, hR, hV, ?_⟩
  intro r hr x hx
  refine ⟨fun hK s hs y hy hw => ?_, fun hK => hG.2 r hr x hx hK⟩
  apply hG.1 r hr x _ hK s hs y hy hw
  intro j hj
  exact ⟨fun _ => hx j hj, fun he => absurd he (by omega), fun hlt => absurd hlt (by omega)⟩

/-! ## C09 -/

theorem fullPlan_ok (h : su.Ok np) : PlanOk su np fullPlan (fun _ => True) where
  step := by decide
  wraps := fun _ _ _ => Iff.rfl
  sends := by
    intro i hi dir r hr x hx j hj
    have hs := (h.wf hr).side j hj
    have hg := h.ghosts
    have h1 := hx j hj
    simp only [fullPlan, sendMin, sendMax] at h1
    by_cases hji : j = i
    · subst hji
      simp only [if_true] at h1
      cases dir <;> simp only [shape_ghosts] at * <;> omega
    · simp only [if_neg hji] at h1
      exact ⟨h1.1, h1.2.1⟩
  recvs := by
    intro i hi dir r hr x hx j hj
    have hs := (h.wf hr).side j hj
    have hg := h.ghosts
    have h1 := hx j hj
    simp only [fullPlan, recvMin, recvMax] at h1
    by_cases hji : j = i
    · subst hji
      simp only [if_true] at h1
      cases dir <;> simp only [shape_ghosts] at * <;> omega
    · simp only [if_neg hji] at h1
      exact ⟨h1.1, h1.2.1⟩
  regions := by
    intro i hi dir r hr j hj
    simp only [fullPlan, recvMin, recvMax, sendMin, sendMax, shiftBy]
    by_cases hji : j = i
    · subst hji
      simp only [if_true]
      cases dir <;> simp only [shape_ghosts] <;> omega
    · have := recvProc_other h hi dir hr hj hji
      simp only [if_neg hji, shape_ghosts, this.1, this.2]
      omega
  slab := by
    intro i hi dir r hr x hx
    have hg := h.ghosts
    constructor
    · intro hrg
      have h1 := hrg i hi
      simp only [fullPlan, recvMin, recvMax, if_true] at h1
      simp only [InSlab, and_true]
      cases dir <;> simp only at h1 ⊢ <;> omega
    · rintro ⟨hsl, _⟩ j hj
      have h1 := hx j hj
      refine ⟨?_, ?_, by exact_mod_cast one_dvd _⟩ <;> simp only [fullPlan, recvMin, recvMax] <;> by_cases hji : j = i
      · subst hji
        simp only [if_true]
        simp only [InSlab] at hsl
        cases dir <;> simp only [shape_ghosts] at * <;> omega
      · simp only [if_neg hji]; exact h1.1
      · subst hji
        simp only [if_true]
        simp only [InSlab] at hsl
        cases dir <;> simp only [shape_ghosts] at * <;> omega
      · simp only [if_neg hji]; exact h1.2

/-- C09: after a ghost exchange, every cell of every rank - ghosts, edges and corners included - holds the value that the
owning rank held at that coordinate wrapped periodically around the global box; the exchange neither aborts nor runs into
undefined behaviour on any rank. Cells may have different encoded lengths (vector, sparse). -/
theorem ghostswap_correct (hc : RoundTrips c) (h : su.Ok np) {S : Int → Outcome (RankSt T)} {D0 : Int → Int → T}
    (hS : Running np S D0) (hv : AllValid c su np D0) :
    ∃ D, Running np (ghostswap fullPlan c su S) D ∧
      ∀ r, IsRank np r → ∀ x, (su.shape r).IsCell x → ∀ s, IsRank np s → ∀ y, (su.shape s).IsNode y → Wraps su x y →
        cellAt (su.shape r) (D r) x = cellAt (su.shape s) (D0 s) y := by
  obtain ⟨D, hR, _, hG⟩ := swap_correct hc h (fullPlan_ok h) hS hv
  exact ⟨D, hR, fun r hr x hx => (hG r hr x hx).1 trivial⟩

/-- C09: the owner exists, so the theorem above speaks about every cell: each coordinate wraps to a node of exactly one
rank. -/
theorem owner_exists (h : su.Ok np) (x : Nat → Int) :
    ∃ s, IsRank np s ∧ ∃ y, (su.shape s).IsNode y ∧ Wraps su x y := by
  have hpos : ∀ j, j < su.d → 0 < su.g1 j - su.g0 j := by
    intro j hj; have := h.fits j hj; have := h.grid.1 j hj; omega
  let y : Nat → Int := fun j => su.g0 j + (x j - su.g0 j) % (su.g1 j - su.g0 j)
  have hy : InGlobal su.d su.g0 su.g1 y := by
    intro j hj
    have h1 := Int.emod_nonneg (x j - su.g0 j) (hpos j hj).ne'
    have h2 := Int.emod_lt_of_pos (x j - su.g0 j) (hpos j hj)
    constructor <;> simp only [y] <;> omega
  obtain ⟨s, ⟨h0, h1, h2⟩, _⟩ := partition h.grid h.box hy
  refine ⟨s, ⟨h0, h1⟩, y, h2, ?_⟩
  intro j hj
  simp only [y]
  have e : x j - (su.g0 j + (x j - su.g0 j) % (su.g1 j - su.g0 j)) =
      (x j - su.g0 j) - (x j - su.g0 j) % (su.g1 j - su.g0 j) := by ring
  rw [e]
  exact Int.dvd_self_sub_emod

/-- C09: owned cells are unchanged. -/
theorem ghostswap_keeps_own (hc : RoundTrips c) (h : su.Ok np) {S : Int → Outcome (RankSt T)} {D0 : Int → Int → T}
    (hS : Running np S D0) (hv : AllValid c su np D0) :
    ∃ D, Running np (ghostswap fullPlan c su S) D ∧
      ∀ r, IsRank np r → ∀ x, (su.shape r).IsNode x → cellAt (su.shape r) (D r) x = cellAt (su.shape r) (D0 r) x := by
  obtain ⟨D, hR, hD⟩ := ghostswap_correct hc h hS hv
  refine ⟨D, hR, ?_⟩
  intro r hr x hx
  apply hD r hr x _ r hr x hx (fun j _ => by rw [sub_self]; exact dvd_zero _)
  intro j hj
  have := hx j hj
  have := h.ghosts
  simp only [shape_ghosts]
  omega

end

/-! ### Satisfiable: 2 × 3 processes on an 8 × 9 box with two ghost layers -/

/-- The sample parallel grid. -/
def sampleSetup : Setup :=
  { d := 2, g0 := fun j => if j = 0 then -2 else 0, g1 := fun j => if j = 0 then 6 else 9, ghosts := 2,
    p := fun j => if j = 0 then 2 else 3 }

theorem sampleSetup_ok : sampleSetup.Ok 6 := by
  have hj2 : ∀ j, j < 2 → j = 0 ∨ j = 1 := by intro j hj; omega
  refine ⟨⟨fun j hj => ?_, by decide⟩, by decide, fun j hj => ?_, by decide, fun j hj => ?_, fun r h0 h1 j hj => ?_⟩
  · rcases hj2 j hj with rfl | rfl <;> decide
  · rcases hj2 j hj with rfl | rfl <;> decide
  · rcases hj2 j hj with rfl | rfl <;> decide
  · have hr : r = 0 ∨ r = 1 ∨ r = 2 ∨ r = 3 ∨ r = 4 ∨ r = 5 := by omega
    rcases hj2 j hj with rfl | rfl <;> rcases hr with rfl | rfl | rfl | rfl | rfl | rfl <;> decide +kernel

example : sampleSetup.Ok 6 ∧ Running 6 (fun _ => .ok ⟨fun _ => (0 : Byte), 0⟩) (fun _ _ => (0 : Byte)) ∧
    AllValid (primCell byteCodec) sampleSetup 6 (fun _ _ => 0) :=
  ⟨sampleSetup_ok, fun _ _ => ⟨0, rfl⟩, fun _ _ _ _ _ => trivial⟩

/-! ## C10 -/

/-- Four processes on four nodes with two ghost layers: every box is thinner than the ghost width. -/
def thinSetup : Setup := { d := 1, g0 := fun _ => 0, g1 := fun _ => 4, ghosts := 2, p := fun _ => 4 }

/-- C10: the claim of C09 without the requirement on the ghost width is false. Node `k` has value `k`, all ghosts hold 99;
after the exchange rank 0 still has 99 at coordinate -2, whose owner (rank 2) holds 2. -/
theorem ghostswap_thin_fails :
    ProcGrid 4 1 thinSetup.p ∧ thinSetup.p 0 ≤ thinSetup.g1 0 - thinSetup.g0 0 ∧
    let D0 : Int → Int → Byte := fun r o => if o = 2 then UInt8.ofNat r.toNat else 99
    let x : Nat → Int := fun _ => -2
    let y : Nat → Int := fun _ => 2
    (thinSetup.shape 0).IsCell x ∧ (thinSetup.shape 2).IsNode y ∧ Wraps thinSetup x y ∧
    (ghostswap fullPlan (primCell byteCodec) thinSetup (fun r => .ok ⟨D0 r, 0⟩) 0).bind
      (fun st => .ok (cellAt (thinSetup.shape 0) st.data x)) = .ok 99 ∧
    cellAt (thinSetup.shape 2) (D0 2) y = 2 := by
  refine ⟨⟨fun j _ => by simp [thinSetup], by decide⟩, by decide, ?_, ?_, ?_, by decide +kernel, by decide +kernel⟩
  · intro j hj
    have : j = 0 := by simp only [shape_dim] at hj; exact Nat.lt_one_iff.mp hj
    subst this; decide +kernel
  · intro j hj
    have : j = 0 := by simp only [shape_dim] at hj; exact Nat.lt_one_iff.mp hj
    subst this; decide +kernel
  · intro j _
    simp only [thinSetup]; decide

end MMSP.Ghost
