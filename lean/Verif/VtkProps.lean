import Verif.Vtk
import Verif.ImageProps
import Verif.SparseProps
import Verif.BufferProps
import Mathlib.Algebra.BigOperators.Intervals
/-!
# Property C62: VTK images
-/

namespace MMSP.Vtk

open Stencil (gridAt)
open Image (up point mem_up up_nodup)

variable {T D : Type}

/-! ## Where a node is in the file -/

/-- Number of a node if the first axis runs fastest. -/
def raster (g : Shape) (x : Nat → Int) : Int := ∑ j ∈ Finset.range g.dim, (x j - g.x0 j) * ∏ i ∈ Finset.range j, (g.x1 i - g.x0 i)

/-- The same, as computed by `GetScalarPointer`. -/
def idx (g : Shape) (x : Nat → Int) : Int :=
  ((x 2 - low g 2) * (high g 1 - low g 1) + (x 1 - low g 1)) * (high g 0 - low g 0) + (x 0 - low g 0)

/-- Inside the extent -/
def Inside (g : Shape) (x : Nat → Int) : Prop := ∀ j < 3, low g j ≤ x j ∧ x j < high g j

theorem mem_visited {g : Shape} {x : Nat → Int} : x ∈ visited g ↔ Inside g x ∧ x = point (x 0) (x 1) (x 2) := by
  unfold visited
  simp only [List.mem_flatMap, List.mem_map, mem_up]
  constructor
  · rintro ⟨c, hc, b, hb, a, ha, rfl⟩
    refine ⟨fun j hj => ?_, rfl⟩
    have : j = 0 ∨ j = 1 ∨ j = 2 := by omega
    rcases this with rfl | rfl | rfl
    · exact ha
    · exact hb
    · exact hc
  · rintro ⟨h, e⟩
    exact ⟨x 2, h 2 (by omega), x 1, h 1 (by omega), x 0, h 0 (by omega), e.symm⟩

theorem visited_nodup (g : Shape) : (visited g).Nodup := by
  unfold visited
  rw [List.nodup_flatMap]
  refine ⟨fun c _ => ?_, ?_⟩
  · rw [List.nodup_flatMap]
    refine ⟨fun b _ => ?_, ?_⟩
    · exact (up_nodup _ _).map fun a a' h => congrFun h 0
    · apply (up_nodup _ _).imp
      intro b b' hne x h1 h2
      rw [List.mem_map] at h1 h2
      obtain ⟨a, -, rfl⟩ := h1
      obtain ⟨a', -, e⟩ := h2
      exact hne (congrFun e 1).symm
  · apply (up_nodup _ _).imp
    intro c c' hne x h1 h2
    simp only [List.mem_flatMap, List.mem_map] at h1 h2
    obtain ⟨b, -, a, -, rfl⟩ := h1
    obtain ⟨b', -, a', -, e⟩ := h2
    exact hne (congrFun e 2).symm

theorem pair_inj {w a b a' b' : Int} (hb : 0 ≤ b ∧ b < w) (hb' : 0 ≤ b' ∧ b' < w) (h : a * w + b = a' * w + b') : a = a' ∧ b = b' := by
  have e : b = b' := by
    have h1 : (a * w + b) % w = b := by rw [add_comm, Int.add_mul_emod_self_right, Int.emod_eq_of_lt hb.1 hb.2]
    have h2 : (a' * w + b') % w = b' := by rw [add_comm, Int.add_mul_emod_self_right, Int.emod_eq_of_lt hb'.1 hb'.2]
    rw [← h1, ← h2, h]
  refine ⟨?_, e⟩
  have : a * w = a' * w := by omega
  exact Int.eq_of_mul_eq_mul_right (by omega) this

theorem pair_bound {w n a b : Int} (ha : 0 ≤ a ∧ a < n) (hb : 0 ≤ b ∧ b < w) : 0 ≤ a * w + b ∧ a * w + b < n * w := by
  constructor
  · have := mul_nonneg ha.1 (by omega : (0 : Int) ≤ w)
    omega
  · have : (a + 1) * w ≤ n * w := mul_le_mul_of_nonneg_right (by omega) (by omega)
    linarith [this, add_mul a 1 w]

theorem idx_inj {g : Shape} {x y : Nat → Int} (hx : Inside g x) (hy : Inside g y) (h : idx g x = idx g y) : ∀ j < 3, x j = y j := by
  unfold idx at h
  have b0 := hx 0 (by omega)
  have b1 := hx 1 (by omega)
  have c0 := hy 0 (by omega)
  have c1 := hy 1 (by omega)
  obtain ⟨h1, h2⟩ := pair_inj (by omega) (by omega) h
  obtain ⟨h3, h4⟩ := pair_inj (by omega) (by omega) h1
  intro j hj
  have : j = 0 ∨ j = 1 ∨ j = 2 := by omega
  rcases this with rfl | rfl | rfl <;> omega

/-- Points of the image -/
def points (g : Shape) : Int := (high g 2 - low g 2) * (high g 1 - low g 1) * (high g 0 - low g 0)

theorem idx_bound {g : Shape} {x : Nat → Int} (hx : Inside g x) : 0 ≤ idx g x ∧ idx g x < points g := by
  have b0 := hx 0 (by omega)
  have b1 := hx 1 (by omega)
  have b2 := hx 2 (by omega)
  exact pair_bound (pair_bound (by omega) (by omega)) (by omega)

theorem points_eq {g : Shape} (hg : g.Wf) (hd : g.dim = 1 ∨ g.dim = 2 ∨ g.dim = 3) : points g = g.nodes := by
  rw [Shape.nodes_eq hg]
  unfold points low high
  rcases hd with h | h | h <;> rw [h] <;> norm_num [Finset.prod_range_succ] <;> ring

theorem idx_eq_raster {g : Shape} (hd : g.dim = 1 ∨ g.dim = 2 ∨ g.dim = 3) {x : Nat → Int} (hx : Inside g x) : idx g x = raster g x := by
  have b1 := hx 1 (by omega)
  have b2 := hx 2 (by omega)
  unfold idx raster
  unfold low high at *
  rcases hd with h | h | h <;> rw [h] at b1 b2 ⊢ <;> norm_num [Finset.sum_range_succ, Finset.prod_range_succ] at b1 b2 ⊢
  · have e1 : x 1 = 0 := by omega
    have e2 : x 2 = 0 := by omega
    rw [e1, e2]; simp
  · have e2 : x 2 = 0 := by omega
    rw [e2]; ring
  · ring

/-! ## Writing -/

theorem write_comps (m : Img D) (p : Int) (v : D) (m' : Img D) (h : m.write p v = .ok m') : m'.lo = m.lo ∧ m'.hi = m.hi ∧ m'.comps = m.comps := by
  unfold Img.write at h
  split at h
  · cases h; exact ⟨rfl, rfl, rfl⟩
  · cases h

/-- The numbers go to consecutive places. -/
theorem writeAll_ok (m : Img D) {p : Nat} (vs : List D) (h : (p : Int) + vs.length ≤ m.size) :
    writeAll m p vs = .ok { m with mem := fun q => if p ≤ q ∧ q < p + vs.length then vs[q - p]? else m.mem q } := by
  unfold writeAll
  have aux : ∀ k, k ≤ vs.length → (List.range k).foldlM (writeOne vs p) m =
      Outcome.ok { m with mem := fun q => if p ≤ q ∧ q < p + k then vs[q - p]? else m.mem q } := by
    intro k hk
    induction k with
    | zero =>
      rw [List.range_zero, List.foldlM_nil, Outcome.pure_eq]
      congr 1
      have : (fun q => if p ≤ q ∧ q < p + 0 then vs[q - p]? else m.mem q) = m.mem := by
        funext q; rw [if_neg (by omega)]
      rw [this]
    | succ k ih =>
      rw [List.range_succ, List.foldlM_append, ih (by omega), Outcome.bind_eq, Outcome.ok_bind, List.foldlM_cons, Outcome.bind_eq]
      have hk' : k < vs.length := by omega
      unfold writeOne
      rw [List.getElem?_eq_getElem hk']
      dsimp only
      unfold Img.write
      have hs : Img.size { m with mem := fun q => if p ≤ q ∧ q < p + k then vs[q - p]? else m.mem q } = m.size := rfl
      rw [hs, if_pos (by omega), Outcome.ok_bind, List.foldlM_nil, Outcome.pure_eq]
      congr 1
      congr 1
      funext q
      rw [show ((p : Int) + k).toNat = p + k by omega]
      by_cases hq : q = p + k
      · subst hq
        rw [Function.update_self, if_pos (by omega), show p + k - p = k by omega, List.getElem?_eq_getElem hk']
      · rw [Function.update_of_ne hq]
        dsimp only
        by_cases h1 : p ≤ q ∧ q < p + k
        · rw [if_pos h1, if_pos (by omega)]
        · rw [if_neg h1, if_neg (by omega)]
  exact aux _ le_rfl

theorem writeAll_bound {m m' : Img D} {p : Int} {vs : List D} (hne : vs ≠ []) (h : writeAll m p vs = .ok m') : p + vs.length ≤ m.size := by
  unfold writeAll at h
  have hpos : 0 < vs.length := List.length_pos_of_ne_nil hne
  obtain ⟨k, hk⟩ : ∃ k, vs.length = k + 1 := ⟨vs.length - 1, by omega⟩
  have inv : ∀ (L : List Nat) (a b : Img D), L.foldlM (writeOne vs p) a = Outcome.ok b → b.size = a.size := by
    intro L
    induction L with
    | nil => intro a b e; rw [List.foldlM_nil, Outcome.pure_eq] at e; cases e; rfl
    | cons i L ih =>
      intro a b e
      rw [List.foldlM_cons, Outcome.bind_eq] at e
      unfold writeOne at e
      cases hv : vs[i]? with
      | none => rw [hv] at e; cases e
      | some v =>
        rw [hv] at e
        dsimp only at e
        cases hw : a.write (p + i) v with
        | ok c =>
          rw [hw, Outcome.ok_bind] at e
          obtain ⟨e1, e2, e3⟩ := write_comps _ _ _ _ hw
          rw [ih c b (by unfold writeOne; exact e)]
          unfold Img.size Img.width
          rw [e1, e2, e3]
        | ub => rw [hw] at e; cases e
        | abort n => rw [hw] at e; cases e
  rw [hk, List.range_succ, List.foldlM_append, Outcome.bind_eq] at h
  cases hf : (List.range k).foldlM (writeOne vs p) m with
  | ok c =>
    rw [hf, Outcome.ok_bind, List.foldlM_cons] at h
    unfold writeOne at h
    rw [List.getElem?_eq_getElem (by omega : k < vs.length)] at h
    dsimp only at h
    have hs := inv _ _ _ hf
    unfold Img.write at h
    split at h
    · next hc => rw [hs] at hc; omega
    · cases h
  | ub => rw [hf] at h; cases h
  | abort n => rw [hf] at h; cases h

/-! ## The picture -/

theorem low_high {g : Shape} (hd : g.dim = 1 ∨ g.dim = 2 ∨ g.dim = 3) {x : Nat → Int} (hx : Inside g x) : g.IsNode x := by
  intro j hj
  have h := hx j (by omega)
  unfold low high at h
  rwa [if_pos hj, if_pos hj] at h

theorem cell_at {g : Shape} (hg : g.Wf) (h0 : g.ghosts = 0) {x : Nat → Int} (hx : g.IsNode x) (data : Int → T) :
    gridAt .serial g data x = .ok (data (g.rawOffset x)) ∧ 0 ≤ g.rawOffset x ∧ g.rawOffset x < g.nodes := by
  have hc : g.IsCell x := fun j hj => by have := hx j hj; omega
  have hb := Shape.rawOffset_bounds hg hc
  have hcn := Convert.cells_eq h0
  have hat : g.atVec .serial x = g.rawOffset x := Shape.atVec_eq_raw .serial fun j hj => checkBoundary_inside _ _ _ _ _ _ (hx j hj)
  refine ⟨?_, hb.1, by omega⟩
  unfold gridAt deref
  rw [hat]
  exact if_pos hb

/-- The extent of the image is that of the grid. -/
structure Framed (g : Shape) (comps : Nat) (m : Img D) : Prop where
  lo : m.lo = low g
  hi : m.hi = high g
  comps : m.comps = comps

theorem Framed.size {g : Shape} {comps : Nat} {m : Img D} (h : Framed g comps m) : m.size = points g * comps := by
  unfold Img.size Img.width points
  rw [h.lo, h.hi, h.comps]

theorem Framed.pointer {g : Shape} {comps : Nat} {m : Img D} (h : Framed g comps m) {x : Nat → Int} (hx : Inside g x) : m.pointer x = some (idx g x * comps) := by
  unfold Img.pointer Img.width
  rw [h.lo, h.hi, h.comps]
  exact if_pos hx

theorem paint_one {g : Shape} {comps : Nat} {values : T → Outcome (List D)} {data : Int → T} {m : Img D} (hm : Framed g comps m) {x : Nat → Int} (hx : Inside g x) {c : T}
    (hc : gridAt .serial g data x = .ok c) {vs : List D} (hv : values c = .ok vs) (hl : vs.length ≤ comps) :
    ∃ m', paint g values data m x = .ok m' ∧ Framed g comps m' ∧
      ∀ k h : Nat, h < comps → m'.mem (k * comps + h) = if (k : Int) = idx g x ∧ h < vs.length then vs[h]? else m.mem (k * comps + h) := by
  obtain ⟨b0, b1⟩ := idx_bound hx
  obtain ⟨i, hi⟩ := Int.eq_ofNat_of_zero_le b0
  unfold paint
  rw [hc, Outcome.ok_bind, hv, Outcome.ok_bind, hm.pointer hx]
  dsimp only
  have hfit : ((i * comps : Nat) : Int) + vs.length ≤ m.size := by
    rw [hm.size]
    have : ((i : Int) + 1) * comps ≤ points g * comps := mul_le_mul_of_nonneg_right (by omega) (by omega)
    push_cast
    linarith [add_mul (i : Int) 1 comps, (by exact_mod_cast hl : (vs.length : Int) ≤ comps)]
  rw [hi, show ((i : Int) * comps) = ((i * comps : Nat) : Int) by push_cast; rfl, writeAll_ok m vs hfit]
  refine ⟨_, rfl, ⟨hm.lo, hm.hi, hm.comps⟩, ?_⟩
  intro k h hh
  dsimp only
  by_cases hk : k = i
  · subst hk
    by_cases hv : h < vs.length
    · rw [if_pos (by omega), if_pos ⟨rfl, hv⟩, show k * comps + h - k * comps = h by omega]
    · rw [if_neg (by omega), if_neg (by omega)]
  · rw [if_neg, if_neg (by omega)]
    intro hq
    rcases Nat.lt_or_gt_of_ne hk with hlt | hgt
    · have : (k + 1) * comps ≤ i * comps := Nat.mul_le_mul_right _ hlt
      rw [Nat.add_mul] at this
      omega
    · have : (i + 1) * comps ≤ k * comps := Nat.mul_le_mul_right _ hgt
      rw [Nat.add_mul] at this
      omega

theorem paint_list {g : Shape} {comps : Nat} {values : T → Outcome (List D)} {data : Int → T} {W : (Nat → Int) → List D} (L : List (Nat → Int)) (hn : L.Nodup)
    (hL : ∀ x ∈ L, x ∈ visited g ∧ (∃ c, gridAt .serial g data x = .ok c ∧ values c = .ok (W x)) ∧ (W x).length ≤ comps) :
    ∃ m, L.foldlM (paint g values data) (alloc D g comps) = .ok m ∧ Framed g comps m ∧
      (∀ x ∈ L, ∀ h < comps, m.mem ((idx g x).toNat * comps + h) = (W x)[h]?) ∧
      ∀ k h : Nat, h < comps → (∀ x ∈ L, (k : Int) ≠ idx g x) → m.mem (k * comps + h) = none := by
  induction L using List.reverseRecOn with
  | nil => exact ⟨_, rfl, ⟨rfl, rfl, rfl⟩, by simp, fun _ _ _ _ => rfl⟩
  | append_singleton L x ih =>
    rw [List.nodup_append] at hn
    obtain ⟨m, hm, hf, hA, hB⟩ := ih hn.1 fun y hy => hL y (by simp [hy])
    obtain ⟨hx, ⟨c, hc, hv⟩, hl⟩ := hL x (by simp)
    obtain ⟨m', hm', hf', hmem⟩ := paint_one hf (mem_visited.1 hx).1 hc hv hl
    have hxb := idx_bound (mem_visited.1 hx).1
    have hne : ∀ y ∈ L, idx g y ≠ idx g x := by
      intro y hy e
      have hyv := (hL y (by simp [hy])).1
      have h3 := idx_inj (mem_visited.1 hyv).1 (mem_visited.1 hx).1 e
      apply hn.2.2 y hy x (by simp)
      rw [(mem_visited.1 hyv).2, (mem_visited.1 hx).2, h3 0 (by omega), h3 1 (by omega), h3 2 (by omega)]
    refine ⟨m', ?_, hf', ?_, ?_⟩
    · rw [List.foldlM_append, hm, Outcome.bind_eq, Outcome.ok_bind, List.foldlM_cons, hm']
      rfl
    · intro y hy h hh
      rw [hmem _ _ hh]
      rcases List.mem_append.1 hy with hy | hy
      · have hyb := idx_bound (mem_visited.1 (hL y (by simp [hy])).1).1
        rw [if_neg, hA y hy h hh]
        rintro ⟨e, -⟩
        exact hne y hy (by omega)
      · rw [List.mem_singleton] at hy
        subst hy
        by_cases hv : h < (W y).length
        · rw [if_pos ⟨by omega, hv⟩]
        · rw [if_neg (by omega), hB _ _ hh, List.getElem?_eq_none (by omega)]
          intro z hz e
          exact hne z hz (by omega)
    · intro k h hh hk
      rw [hmem k h hh, if_neg, hB k h hh fun y hy => hk y (by simp [hy])]
      rintro ⟨e, -⟩
      exact hk x (by simp) e

/-- C62: the image has the extent of the grid and as many numbers as there are nodes times components. The numbers of a node are at its place, the first axis running
fastest; the components a cell does not have are left uninitialised. -/
theorem picture {g : Shape} (hg : g.Wf) (h0 : g.ghosts = 0) (hd : g.dim = 1 ∨ g.dim = 2 ∨ g.dim = 3) {comps : Nat} {values : T → Outcome (List D)} {data : Int → T}
    {v : Int → List D} (hv : ∀ n, 0 ≤ n → n < g.nodes → values (data n) = .ok (v n) ∧ (v n).length ≤ comps) :
    ∃ m, fieldToVtk g comps values data = .ok m ∧ m.size = g.nodes * comps ∧ (∀ j < g.dim, m.lo j = g.x0 j ∧ m.hi j = g.x1 j) ∧ (∀ j, g.dim ≤ j → m.lo j = 0 ∧ m.hi j = 1) ∧
      ∀ n, 0 ≤ n → n < g.nodes → ∀ h < comps, m.mem ((raster g (g.position n)).toNat * comps + h) = (v n)[h]? := by
  obtain ⟨m, hm, hf, hA, -⟩ := paint_list (g := g) (comps := comps) (values := values) (data := data) (W := fun x => v (g.rawOffset x)) (visited g) (visited_nodup g) (by
    intro x hx
    obtain ⟨hc, b0, b1⟩ := cell_at hg h0 (low_high hd (mem_visited.1 hx).1) data
    exact ⟨hx, ⟨_, hc, (hv _ b0 b1).1⟩, (hv _ b0 b1).2⟩)
  refine ⟨m, hm, by rw [hf.size, points_eq hg hd], ?_, ?_, ?_⟩
  · intro j hj
    rw [hf.lo, hf.hi]
    unfold low high
    rw [if_pos hj, if_pos hj]
    exact ⟨rfl, rfl⟩
  · intro j hj
    rw [hf.lo, hf.hi]
    unfold low high
    rw [if_neg (by omega), if_neg (by omega)]
    exact ⟨rfl, rfl⟩
  · intro n hn0 hn1 h hh
    have hnode := Shape.position_isNode hg hn0 hn1
    let f : Nat → Int := fun j => if j < g.dim then g.position n j else 0
    have hfin : Inside g f := by
      intro j hj
      unfold low high
      dsimp only [f]
      by_cases hjd : j < g.dim
      · rw [if_pos hjd, if_pos hjd, if_pos hjd]; exact hnode j hjd
      · rw [if_neg hjd, if_neg hjd, if_neg hjd]; omega
    let x : Nat → Int := point (f 0) (f 1) (f 2)
    have hxf : ∀ j < 3, x j = f j := by
      intro j hj
      have : j = 0 ∨ j = 1 ∨ j = 2 := by omega
      rcases this with rfl | rfl | rfl <;> rfl
    have hxin : Inside g x := fun j hj => by rw [hxf j hj]; exact hfin j hj
    have hxv : x ∈ visited g := mem_visited.2 ⟨hxin, rfl⟩
    have hxn : ∀ j < g.dim, x j = g.position n j := by
      intro j hj
      rw [hxf j (by omega)]
      exact if_pos hj
    have hr : raster g x = raster g (g.position n) := by
      unfold raster
      apply Finset.sum_congr rfl
      intro j hj
      rw [hxn j (Finset.mem_range.1 hj)]
    have hoff : g.rawOffset x = n := by
      rw [rawOffset_congr hxn]
      have h1 := Shape.atNode_eq_atVec hg .serial (fun _ => h0) hn0 hn1
      rw [show g.atNode .serial n = n from rfl] at h1
      rw [← Shape.atVec_eq_raw .serial (x := g.position n) fun j hj => checkBoundary_inside _ _ _ _ _ _ (hnode j hj), ← h1]
    have := hA x hxv h hh
    rw [hoff, idx_eq_raster hd hxin, hr] at this
    exact this

/-- C62: the numbers of different nodes are in different places, and there are no other places. -/
theorem raster_bij {g : Shape} (hg : g.Wf) (hd : g.dim = 1 ∨ g.dim = 2 ∨ g.dim = 3) {comps : Nat} (hc : 0 < comps) :
    (∀ n n', 0 ≤ n → n < g.nodes → 0 ≤ n' → n' < g.nodes → raster g (g.position n) = raster g (g.position n') → n = n') ∧
    (∀ n, 0 ≤ n → n < g.nodes → 0 ≤ raster g (g.position n) ∧ raster g (g.position n) < g.nodes) ∧
    ∀ q : Nat, (q : Int) < g.nodes * comps → ∃ n h, 0 ≤ n ∧ n < g.nodes ∧ h < comps ∧ q = (raster g (g.position n)).toNat * comps + h := by
  have key : ∀ n, 0 ≤ n → n < g.nodes → ∃ x, Inside g x ∧ (∀ j < g.dim, x j = g.position n j) ∧ idx g x = raster g (g.position n) := by
    intro n hn0 hn1
    have hnode := Shape.position_isNode hg hn0 hn1
    have hin : Inside g fun j => if j < g.dim then g.position n j else 0 := by
      intro j hj
      unfold low high
      beta_reduce
      by_cases hjd : j < g.dim
      · rw [if_pos hjd, if_pos hjd, if_pos hjd]; exact hnode j hjd
      · rw [if_neg hjd, if_neg hjd, if_neg hjd]; omega
    refine ⟨_, hin, fun j hj => if_pos hj, ?_⟩
    rw [idx_eq_raster hd hin]
    unfold raster
    apply Finset.sum_congr rfl
    intro j hj
    beta_reduce
    rw [if_pos (Finset.mem_range.1 hj)]
  have inj : ∀ n n', 0 ≤ n → n < g.nodes → 0 ≤ n' → n' < g.nodes → raster g (g.position n) = raster g (g.position n') → n = n' := by
    intro n n' h0 h1 h0' h1' e
    obtain ⟨x, hx, ex, rx⟩ := key n h0 h1
    obtain ⟨y, hy, ey, ry⟩ := key n' h0' h1'
    have h3 := idx_inj hx hy (by rw [rx, ry, e])
    exact Shape.position_inj hg h0 h1 h0' h1' fun j hj => by rw [← ex j hj, ← ey j hj, h3 j (by omega)]
  have bound : ∀ n, 0 ≤ n → n < g.nodes → 0 ≤ raster g (g.position n) ∧ raster g (g.position n) < g.nodes := by
    intro n h0 h1
    obtain ⟨x, hx, -, rx⟩ := key n h0 h1
    rw [← rx, ← points_eq hg hd]
    exact idx_bound hx
  refine ⟨inj, bound, ?_⟩
  intro q hq
  have hk : q / comps < g.nodes.toNat := by
    rw [Nat.div_lt_iff_lt_mul hc]
    have : ((g.nodes.toNat * comps : Nat) : Int) = g.nodes * comps := by
      push_cast
      rw [Int.toNat_of_nonneg]
      by_contra hneg
      have := mul_nonpos_of_nonpos_of_nonneg (by omega : g.nodes ≤ 0) (Int.natCast_nonneg comps)
      omega
    omega
  -- an injection of a finite set into itself is onto
  let F : Fin g.nodes.toNat → Fin g.nodes.toNat := fun n => ⟨(raster g (g.position n)).toNat, by
    have := bound n (by omega) (by omega)
    omega⟩
  have hF : Function.Injective F := by
    intro n n' e
    have e' := congrArg Fin.val e
    dsimp only [F] at e'
    have b := bound n (by omega) (by omega)
    have b' := bound n' (by omega) (by omega)
    have := inj n n' (by omega) (by omega) (by omega) (by omega) (by omega)
    exact Fin.ext (by omega)
  obtain ⟨n, hn⟩ := (Finite.injective_iff_surjective.1 hF) ⟨q / comps, hk⟩
  have hn' := congrArg Fin.val hn
  dsimp only [F] at hn'
  refine ⟨n, q % comps, by omega, by omega, Nat.mod_lt _ hc, ?_⟩
  rw [hn', Nat.mul_comm]
  exact (Nat.div_add_mod q comps).symm

/-- C62: a last cell with more numbers than components is written past the end. -/
theorem too_long {g : Shape} (hg : g.Wf) (h0 : g.ghosts = 0) (hd : g.dim = 1 ∨ g.dim = 2 ∨ g.dim = 3) {comps : Nat} {values : T → Outcome (List D)} {data : Int → T}
    {v : Int → List D} (hv : ∀ n, 0 ≤ n → n < g.nodes → values (data n) = .ok (v n)) {n : Int} (hn0 : 0 ≤ n) (hn1 : n < g.nodes)
    (hlast : ∀ j < g.dim, g.position n j = g.x1 j - 1) (hlong : comps < (v n).length) (m : Img D) : fieldToVtk g comps values data ≠ .ok m := by
  intro hm
  have hframe : ∀ (L : List (Nat → Int)) (a b : Img D), Framed g comps a → L.foldlM (paint g values data) a = .ok b → Framed g comps b := by
    have hwl : ∀ (vs : List D) (p : Int) (L : List Nat) (a b : Img D), Framed g comps a →
        L.foldlM (writeOne vs p) a = Outcome.ok b → Framed g comps b := by
      intro vs p L
      induction L with
      | nil => intro a b ha e; rw [List.foldlM_nil, Outcome.pure_eq] at e; cases e; exact ha
      | cons i L ih =>
        intro a b ha e
        rw [List.foldlM_cons, Outcome.bind_eq] at e
        unfold writeOne at e
        cases hv : vs[i]? with
        | none => rw [hv] at e; cases e
        | some w =>
          rw [hv] at e
          dsimp only at e
          cases hw : a.write (p + i) w with
          | ok c =>
            rw [hw, Outcome.ok_bind] at e
            obtain ⟨e1, e2, e3⟩ := write_comps _ _ _ _ hw
            exact ih c b ⟨e1.trans ha.lo, e2.trans ha.hi, e3.trans ha.comps⟩ (by unfold writeOne; exact e)
          | ub => rw [hw] at e; cases e
          | abort n => rw [hw] at e; cases e
    intro L
    induction L with
    | nil => intro a b ha e; rw [List.foldlM_nil, Outcome.pure_eq] at e; cases e; exact ha
    | cons x L ih =>
      intro a b ha e
      rw [List.foldlM_cons, Outcome.bind_eq] at e
      cases hp : paint g values data a x with
      | ok c =>
        rw [hp, Outcome.ok_bind] at e
        refine ih c b ?_ e
        unfold paint at hp
        cases h1 : gridAt .serial g data x with
        | ok d =>
          rw [h1, Outcome.ok_bind] at hp
          cases h2 : values d with
          | ok vs =>
            rw [h2, Outcome.ok_bind] at hp
            split at hp
            · exact hwl _ _ _ _ _ ha hp
            · split at hp
              · cases hp; exact ha
              · cases hp
          | ub => rw [h2] at hp; cases hp
          | abort n => rw [h2] at hp; cases hp
        | ub => rw [h1] at hp; cases hp
        | abort n => rw [h1] at hp; cases hp
      | ub => rw [hp] at e; cases e
      | abort n => rw [hp] at e; cases e
  have hnode := Shape.position_isNode hg hn0 hn1
  let x : Nat → Int := point (high g 0 - 1) (high g 1 - 1) (high g 2 - 1)
  have hlh : ∀ j, low g j < high g j := by
    intro j
    unfold low high
    by_cases hj : j < g.dim
    · rw [if_pos hj, if_pos hj]; have := hnode j hj; omega
    · rw [if_neg hj, if_neg hj]; omega
  have hxj : ∀ j < 3, x j = high g j - 1 := by
    intro j hj
    have : j = 0 ∨ j = 1 ∨ j = 2 := by omega
    rcases this with rfl | rfl | rfl <;> rfl
  have hxin : Inside g x := fun j hj => by rw [hxj j hj]; have := hlh j; omega
  have hxv : x ∈ visited g := mem_visited.2 ⟨hxin, rfl⟩
  have hxn : ∀ j < g.dim, x j = g.position n j := by
    intro j hj
    rw [hxj j (by omega), hlast j hj]
    unfold high
    rw [if_pos hj]
  have hoff : g.rawOffset x = n := by
    rw [rawOffset_congr hxn]
    have h1 := Shape.atNode_eq_atVec hg .serial (fun _ => h0) hn0 hn1
    rw [show g.atNode .serial n = n from rfl] at h1
    rw [← Shape.atVec_eq_raw .serial (x := g.position n) fun j hj => checkBoundary_inside _ _ _ _ _ _ (hnode j hj), ← h1]
  have hidx : idx g x = points g - 1 := by
    unfold idx points
    rw [hxj 0 (by omega), hxj 1 (by omega), hxj 2 (by omega)]
    ring
  obtain ⟨L1, L2, hsplit⟩ := List.append_of_mem hxv
  unfold fieldToVtk at hm
  rw [hsplit, List.foldlM_append, Outcome.bind_eq] at hm
  cases h1 : L1.foldlM (paint g values data) (alloc D g comps) with
  | ok a =>
    rw [h1, Outcome.ok_bind, List.foldlM_cons, Outcome.bind_eq] at hm
    have hfa := hframe _ _ _ ⟨rfl, rfl, rfl⟩ h1
    have hc := (cell_at hg h0 (low_high hd hxin) data).1
    rw [hoff] at hc
    cases h2 : paint g values data a x with
    | ok b =>
      unfold paint at h2
      rw [hc, Outcome.ok_bind, hv n hn0 hn1, Outcome.ok_bind, hfa.pointer hxin] at h2
      dsimp only at h2
      have hb := writeAll_bound (by intro e; rw [e] at hlong; simp at hlong) h2
      rw [hfa.size, hidx] at hb
      have : (points g - 1) * (comps : Int) = points g * comps - comps := by ring
      omega
    | ub => rw [h2] at hm; cases hm
    | abort k => rw [h2] at hm; cases hm
  | ub => rw [h1] at hm; cases hm
  | abort k => rw [h1] at hm; cases hm

/-! ## The numbers of a cell -/

/-- The first of the greatest values. -/
theorem argmax_spec [LinearOrder T] {get : Int → Outcome T} {length : Nat} (hl : 0 < length) {f : Nat → T} (hf : ∀ i : Nat, i < length → get i = .ok (f i)) :
    ∃ k : Nat, argmax get length = .ok k ∧ k < length ∧ (∀ i < length, f i ≤ f k) ∧ ∀ i < k, f i < f k := by
  have aux : ∀ n, n ≤ length → 0 < n → ∃ k : Nat, argmax get n = .ok k ∧ k < n ∧ (∀ i < n, f i ≤ f k) ∧ ∀ i < k, f i < f k := by
    intro n
    induction n with
    | zero => intro _ h; omega
    | succ n ih =>
      intro hn _
      rcases Nat.eq_zero_or_pos n with rfl | hpos
      · exact ⟨0, rfl, by omega, fun i hi => by rw [show i = 0 by omega], by omega⟩
      · obtain ⟨k, hk, hkn, h1, h2⟩ := ih (by omega) hpos
        have e : argmax get (n + 1) = .ok (if f k < f n then (n : Int) else k) := by
          unfold argmax at hk ⊢
          rw [List.range_succ, List.drop_append_of_le_length (by rw [List.length_range]; omega), List.foldlM_append, hk, Outcome.bind_eq, Outcome.ok_bind, List.foldlM_cons,
            hf n (by omega), Outcome.ok_bind, hf k (by omega), Outcome.ok_bind, Outcome.bind_eq, Outcome.ok_bind, List.foldlM_nil, Outcome.pure_eq]
        rw [e]
        by_cases hlt : f k < f n
        · rw [if_pos hlt]
          refine ⟨n, rfl, by omega, fun i hi => ?_, fun i hi => lt_of_le_of_lt (h1 i hi) hlt⟩
          rcases Nat.lt_succ_iff_lt_or_eq.1 hi with hi | rfl
          · exact (lt_of_le_of_lt (h1 i hi) hlt).le
          · exact le_rfl
        · rw [if_neg hlt]
          refine ⟨k, rfl, by omega, fun i hi => ?_, h2⟩
          rcases Nat.lt_succ_iff_lt_or_eq.1 hi with hi | rfl
          · exact h1 i hi
          · exact not_lt.1 hlt
  exact aux length le_rfl hl

theorem vecGet_ok {c : List T} {i : Nat} (h : i < c.length) : Convert.vecGet c i = .ok c[i] := by
  unfold Convert.vecGet
  rw [if_pos (by omega), if_pos (by omega)]
  simp [h]

theorem value_ok {c : Sparse.Cell T} {i : Nat} (h : i < c.length) : Sparse.value c i = .ok c[i].2 := by
  unfold Sparse.value
  rw [if_pos (by omega), if_pos (by omega)]
  simp [h]

theorem index_ok {c : Sparse.Cell T} {i : Nat} (h : i < c.length) : Sparse.index c i = .ok c[i].1 := by
  unfold Sparse.index
  rw [if_pos (by omega), if_pos (by omega)]
  simp [h]

/-- C62: scalar cells. -/
theorem scalar_spec [Mul T] (sqrt : D → D) (conv : T → D) (v : T) :
    scalarPixel sqrt conv 1 v = .ok [sqrt (conv (v * v))] ∧ ∀ mode, mode ≠ 1 → scalarPixel sqrt conv mode v = .ok [conv v] := by
  refine ⟨by simp [scalarPixel], fun mode h => by simp [scalarPixel, h]⟩

theorem magnitude_eq [Mul T] [AddCommMonoid D] (sqrt : D → D) (conv : T → D) (c : List T) : magnitude sqrt conv c = sqrt ((c.map fun v => conv (v * v)).sum) := by
  unfold magnitude
  congr 1
  have : ∀ a : D, c.foldl (fun sum v => sum + conv (v * v)) a = a + (c.map fun v => conv (v * v)).sum := by
    induction c with
    | nil => intro a; simp
    | cons b c ih => intro a; rw [List.foldl_cons, ih, List.map_cons, List.sum_cons, add_assoc]
  rw [this, zero_add]

/-- C62: vector cells. `--mag` gives the magnitude, `--max` the number of the first greatest component, `--field` the component, and otherwise all components are given; the
number of numbers is that of the components of the image, except that a cell may have another length than the grid. -/
theorem vector_spec [Mul T] [LinearOrder T] [AddCommMonoid D] (sqrt : D → D) (conv : T → D) (ofInt : Int → D) (mode field : Int) (c : List T) :
    (mode = 1 → vectorPixel sqrt conv ofInt mode field c = .ok [sqrt ((c.map fun v => conv (v * v)).sum)]) ∧
    (mode = 2 → 0 < c.length → ∃ k, ∃ hk : k < c.length, vectorPixel sqrt conv ofInt mode field c = .ok [ofInt k] ∧ (∀ i (hi : i < c.length), c[i] ≤ c[k]) ∧
      ∀ i (hi : i < k), c[i] < c[k]) ∧
    (mode = 2 → c = [] → vectorPixel sqrt conv ofInt mode field c = .ok [ofInt 0]) ∧
    (mode = 3 → ∀ i (hi : i < c.length), field = i → vectorPixel sqrt conv ofInt mode field c = .ok [conv c[i]]) ∧
    (mode = 3 → c.length ≤ field → vectorPixel sqrt conv ofInt mode field c = .abort 134) ∧
    (mode = 3 → field < 0 → vectorPixel sqrt conv ofInt mode field c = .ub) ∧
    (mode ≠ 1 → mode ≠ 2 → mode ≠ 3 → vectorPixel sqrt conv ofInt mode field c = .ok (c.map conv)) ∧
    ∀ vs, vectorPixel sqrt conv ofInt mode field c = .ok vs → vs.length = vectorComps mode c.length := by
  refine ⟨?_, ?_, ?_, ?_, ?_, ?_, ?_, ?_⟩
  · rintro rfl
    rw [← magnitude_eq sqrt conv c]
    simp [vectorPixel]
  · rintro rfl hc
    obtain ⟨k, hk, hkl, h1, h2⟩ := argmax_spec (get := Convert.vecGet c) hc (f := fun i => c[i]?.getD c[0]) (fun i hi => by rw [vecGet_ok hi]; simp [hi])
    refine ⟨k, hkl, ?_, ?_, ?_⟩
    · simp [vectorPixel, hk, Outcome.ok_bind]
    · intro i hi
      have := h1 i hi
      simpa [hi, hkl] using this
    · intro i hi
      have := h2 i hi
      simpa [Nat.lt_trans hi hkl, hkl] using this
  · rintro rfl rfl
    rfl
  · rintro rfl i hi rfl
    simp [vectorPixel, vecGet_ok hi, Outcome.ok_bind]
  · rintro rfl h
    have : Convert.vecGet c field = .abort 134 := by unfold Convert.vecGet; rw [if_neg (by omega)]
    simp [vectorPixel, this, Outcome.abort_bind]
  · rintro rfl h
    have : Convert.vecGet c field = .ub := by unfold Convert.vecGet; rw [if_pos (by omega), if_neg (by omega)]
    simp [vectorPixel, this, Outcome.ub_bind]
  · intro h1 h2 h3
    simp [vectorPixel, h1, h2, h3]
  · intro vs h
    unfold vectorPixel at h
    unfold vectorComps
    split_ifs at h with h1 h2 h3
    · cases h; simp [h1]
    · cases ha : argmax (Convert.vecGet c) c.length with
      | ok k => rw [ha, Outcome.ok_bind] at h; cases h; simp [h2]
      | ub => rw [ha] at h; cases h
      | abort n => rw [ha] at h; cases h
    · cases ha : Convert.vecGet c field with
      | ok k => rw [ha, Outcome.ok_bind] at h; cases h; simp [h3]
      | ub => rw [ha] at h; cases h
      | abort n => rw [ha] at h; cases h
    · cases h
      simp [h1, h2, h3]

/-- C62: sparse cells. `--max` gives the index of the first entry with the greatest value, and stops the program at a cell without entries; `--field` gives the value under the
index, 0 if there is none; otherwise the magnitude is given. -/
theorem sparse_spec [Mul T] [Zero T] [LinearOrder T] [AddCommMonoid D] (sqrt : D → D) (conv : T → D) (ofInt : Int → D) (mode field : Int) (c : Sparse.Cell T) :
    (mode = 2 → 0 < c.length → ∃ k, ∃ hk : k < c.length, sparsePixel sqrt conv ofInt mode field c = .ok [ofInt c[k].1] ∧ (∀ i (hi : i < c.length), c[i].2 ≤ c[k].2) ∧
      ∀ i (hi : i < k), c[i].2 < c[k].2) ∧
    (mode = 2 → c = [] → sparsePixel sqrt conv ofInt mode field c = .abort 134) ∧
    (mode = 3 → ∀ t, Sparse.Ok c → (field, t) ∈ c → sparsePixel sqrt conv ofInt mode field c = .ok [conv t]) ∧
    (mode = 3 → field ∉ Sparse.keys c → sparsePixel sqrt conv ofInt mode field c = .ok [conv 0]) ∧
    (mode ≠ 2 → mode ≠ 3 → sparsePixel sqrt conv ofInt mode field c = .ok [sqrt ((c.map fun e => conv (e.2 * e.2)).sum)]) := by
  refine ⟨?_, ?_, ?_, ?_, ?_⟩
  · rintro rfl hc
    obtain ⟨k, hk, hkl, h1, h2⟩ := argmax_spec (get := Sparse.value c) hc (f := fun i => (c[i]?.getD c[0]).2) (fun i hi => by rw [value_ok hi]; simp [hi])
    refine ⟨k, hkl, ?_, ?_, ?_⟩
    · simp [sparsePixel, hk, Outcome.ok_bind, index_ok hkl]
    · intro i hi
      have := h1 i hi
      simpa [hi, hkl] using this
    · intro i hi
      have := h2 i hi
      simpa [Nat.lt_trans hi hkl, hkl] using this
  · rintro rfl rfl
    rfl
  · rintro rfl t hok ht
    simp [sparsePixel, Sparse.get_of_mem hok ht]
  · rintro rfl h
    simp [sparsePixel, Sparse.get_of_not_mem h]
  · intro h2 h3
    have := magnitude_eq sqrt conv (c.map Prod.snd)
    rw [List.map_map] at this
    simp only [sparsePixel, if_neg h2, if_neg h3, this]
    rfl

/-- C62, against the comment in the code: `--max` is not the field with the greatest magnitude. -/
theorem max_not_magnitude (a b : ℚ) (ha : a < 0) (hb : 0 ≤ b) (hab : b < -a) (sqrt conv : ℚ → ℚ) :
    vectorPixel sqrt conv (fun i => (i : ℚ)) 2 0 [a, b] = .ok [1] ∧ |b| < |a| := by
  constructor
  · have : a < b := lt_of_lt_of_le ha hb
    simp [vectorPixel, argmax, Convert.vecGet, List.range_succ, this, Outcome.ok_bind, Outcome.bind_eq, Outcome.pure_eq]
  · rw [abs_of_nonneg hb, abs_of_neg ha]
    exact hab

/-! ## Examples -/

/-- Three by two nodes, not starting at 0. -/
def slab : Shape := { dim := 2, x0 := fun j => if j = 0 then -1 else 4, x1 := fun j => if j = 0 then 2 else 6, b0 := fun _ => .neumann, b1 := fun _ => .neumann, ghosts := 0 }

theorem slab_wf : slab.Wf := by
  refine ⟨by decide, ?_, by decide⟩
  intro j hj
  have : j = 0 ∨ j = 1 := by have : j < 2 := hj; omega
  rcases this with rfl | rfl <;> decide

/-- Nodes 0, 1 differ in the second axis; in the file they are three places apart. -/
example : ∃ m, fieldToVtk slab 1 (fun t : Int => .ok [t]) (fun p => 10 * p) = .ok m ∧ m.mem 0 = some 0 ∧ m.mem 3 = some 10 ∧ m.mem 1 = some 20 ∧ m.mem 5 = some 50 := by
  obtain ⟨m, hm, -, -, -, h⟩ := picture slab_wf rfl (Or.inr (Or.inl rfl)) (comps := 1) (values := fun t : Int => .ok [t]) (data := fun p => 10 * p) (v := fun n => [10 * n])
    (fun n _ _ => ⟨rfl, le_refl 1⟩)
  exact ⟨m, hm, h 0 (by decide) (by decide) 0 (by decide), h 1 (by decide) (by decide) 0 (by decide), h 2 (by decide) (by decide) 0 (by decide), h 5 (by decide) (by decide) 0 (by decide)⟩

example : ∀ q : Nat, (q : Int) < 6 * 2 → ∃ n h, 0 ≤ n ∧ n < 6 ∧ h < 2 ∧ q = (raster slab (slab.position n)).toNat * 2 + h := (raster_bij slab_wf (Or.inr (Or.inl rfl)) (by decide)).2.2

/-- Two fields according to the grid, three in the cells. -/
example (m : Img Int) : fieldToVtk slab 2 (fun t : List Int => .ok t) (fun _ => [1, 2, 3]) ≠ .ok m :=
  too_long slab_wf rfl (Or.inr (Or.inl rfl)) (v := fun _ => [1, 2, 3]) (fun _ _ _ => rfl) (n := 5) (by decide) (by decide) (by
    intro j hj
    have : j = 0 ∨ j = 1 := by have : j < 2 := hj; omega
    rcases this with rfl | rfl <;> decide) (by decide) m

example : vectorPixel (fun x : ℚ => x) (fun x : ℚ => x) (fun i => (i : ℚ)) 2 0 [3, 5, 5] = .ok [1] := by decide +kernel
example : vectorPixel (fun x : ℚ => x) (fun x : ℚ => x) (fun i => (i : ℚ)) 1 0 [3, 4] = .ok [25] := by decide +kernel
example : sparsePixel (fun x : ℚ => x) (fun x : ℚ => x) (fun i => (i : ℚ)) 2 0 [(7, 1 / 4), (3, 3 / 4)] = .ok [3] := by decide +kernel
example : sparsePixel (fun x : ℚ => x) (fun x : ℚ => x) (fun i => (i : ℚ)) 3 7 [(7, 1 / 4), (3, 3 / 4)] = .ok [1 / 4] := by decide +kernel
example : |(1 : ℚ)| < |(-5 : ℚ)| := (max_not_magnitude (-5) 1 (by norm_num) (by norm_num) (by norm_num) id id).2

end MMSP.Vtk
