import Verif.Image
import Verif.ConvertProps
import Verif.IndexProps
import Mathlib.Data.Rat.Floor
import Mathlib.Tactic.Linarith
import Mathlib.Tactic.Ring
/-!
# Grey-scale images (C42)
-/

namespace MMSP.Image

open Stencil

/-! ## Which node is drawn where -/

/-- Width and height of the image, and the node that belongs in row `r` from the top and column `c`. A slice across the first axis shows the second one from right to left and the
third downwards, a slice across the second the third downwards; everything else has the second axis upwards. -/
structure Frame where
  width : Nat
  height : Nat
  node : Nat → Nat → Nat → Int

/-- The picture of a grid. -/
def frame (g : Shape) (axis : Nat) (level : Int) : Frame :=
  let n (j : Nat) : Nat := (g.x1 j - g.x0 j).toNat
  if g.dim = 1 then ⟨n 0, 1, fun _ c => point (g.x0 0 + c) 0 0⟩
  else if g.dim = 2 then ⟨n 0, n 1, fun r c => point (g.x0 0 + c) (g.x1 1 - 1 - r) 0⟩
  else if axis = 0 then ⟨n 1, n 2, fun r c => point level (g.x1 1 - 1 - c) (g.x0 2 + r)⟩
  else if axis = 1 then ⟨n 0, n 2, fun r c => point (g.x0 0 + c) level (g.x0 2 + r)⟩
  else ⟨n 0, n 1, fun r c => point (g.x0 0 + c) (g.x1 1 - 1 - r) level⟩

/-- Row by row, from the top. -/
def Frame.nodes (f : Frame) : List (Nat → Int) := (List.range f.height).flatMap fun r => (List.range f.width).map fun c => f.node r c

theorem flatMap_single {β γ : Type} [DecidableEq β] {L : List β} (hn : L.Nodup) (l : β) (f : β → List γ) :
    (L.flatMap fun a => if a = l then f a else []) = if l ∈ L then f l else [] := by
  induction L with
  | nil => rfl
  | cons a L ih =>
    rw [List.nodup_cons] at hn
    rw [List.flatMap_cons, ih hn.2]
    by_cases e : a = l
    · subst e; simp [hn.1]
    · have : (l ∈ a :: L) ↔ l ∈ L := by simp [Ne.symm e]
      simp [e, this]

theorem up_nodup (lo hi : Int) : (up lo hi).Nodup := by
  unfold up
  exact List.Nodup.map (fun a b h => by simpa using h) List.nodup_range

theorem down_nodup (lo hi : Int) : (down lo hi).Nodup := by
  unfold down
  exact List.Nodup.map (fun a b h => by simp at h; omega) List.nodup_range

theorem mem_up {lo hi x : Int} : x ∈ up lo hi ↔ lo ≤ x ∧ x < hi := by
  unfold up
  rw [List.mem_map]
  constructor
  · rintro ⟨k, hk, rfl⟩; rw [List.mem_range] at hk; omega
  · rintro ⟨h0, h1⟩; exact ⟨(x - lo).toNat, List.mem_range.2 (by omega), by omega⟩

theorem mem_down {lo hi x : Int} : x ∈ down lo hi ↔ lo ≤ x ∧ x < hi := by
  unfold down
  rw [List.mem_map]
  constructor
  · rintro ⟨k, hk, rfl⟩; rw [List.mem_range] at hk; omega
  · rintro ⟨h0, h1⟩; exact ⟨(hi - 1 - x).toNat, List.mem_range.2 (by omega), by omega⟩

theorem filter_const {γ : Type} (L : List γ) (p : Prop) [Decidable p] : (L.filter fun _ => decide p) = if p then L else [] := by
  by_cases h : p <;> simp [h]

/-- **C42.** The loops visit the nodes of the picture row by row from the top; if the slice is outside the grid, none at all. -/
theorem visited_eq {g : Shape} (hd : g.dim = 1 ∨ g.dim = 2 ∨ g.dim = 3) {axis : Nat} (ha : axis < 3) (level : Int) :
    visited g axis level = if g.dim = 3 ∧ ¬ (g.x0 axis ≤ level ∧ level < g.x1 axis) then [] else (frame g axis level).nodes := by
  rcases hd with h | h | h
  · unfold visited frame Frame.nodes up
    simp [h, List.map_map, Function.comp_def]
  · unfold visited frame Frame.nodes up down
    simp [h, List.map_map, Function.comp_def, List.flatMap_map]
  · unfold visited
    rw [if_neg (by omega), if_neg (by omega), if_pos h]
    simp only [List.filter_flatMap, List.filter_map, Function.comp_def]
    have ha' : axis = 0 ∨ axis = 1 ∨ axis = 2 := by omega
    rcases ha' with rfl | rfl | rfl
    · have e : ∀ b c, ((up (g.x0 0) (g.x1 0)).filter fun a => decide (point a b c 0 = level)).map (fun a => point a b c) =
          if g.x0 0 ≤ level ∧ level < g.x1 0 then [point level b c] else [] := by
        intro b c
        have : ∀ L : List Int, (L.filter fun a => decide (point a b c 0 = level)).map (fun a => point a b c) = L.flatMap fun a => if a = level then [point a b c] else [] := by
          intro L
          induction L with
          | nil => rfl
          | cons a L ih =>
            rw [List.flatMap_cons, ← ih]
            by_cases e : a = level <;> simp [point, e]
        rw [this, flatMap_single (up_nodup _ _)]
        simp only [mem_up]
      simp only [e]
      by_cases hl : g.x0 0 ≤ level ∧ level < g.x1 0
      · rw [if_neg (by simp [hl])]
        simp only [if_pos hl]
        unfold frame Frame.nodes up down
        simp [h, List.flatMap_map, ← List.map_eq_flatMap]
      · rw [if_pos ⟨h, hl⟩]
        simp [hl]
    · have e : ∀ c b, ((up (g.x0 0) (g.x1 0)).filter fun a => decide (point a b c 1 = level)).map (fun a => point a b c) =
          if b = level then (up (g.x0 0) (g.x1 0)).map (fun a => point a b c) else [] := by
        intro c b
        have : ∀ a, point a b c 1 = b := fun a => rfl
        simp only [this, filter_const]
        split_ifs <;> rfl
      simp only [e, flatMap_single (down_nodup _ _), mem_down]
      by_cases hl : g.x0 1 ≤ level ∧ level < g.x1 1
      · rw [if_neg (by simp [hl])]
        simp only [if_pos hl]
        unfold frame Frame.nodes up
        simp [h, List.map_map, Function.comp_def, List.flatMap_map]
      · rw [if_pos ⟨h, hl⟩]
        simp [hl]
    · have e : ∀ c b, ((up (g.x0 0) (g.x1 0)).filter fun a => decide (point a b c 2 = level)).map (fun a => point a b c) =
          if c = level then (up (g.x0 0) (g.x1 0)).map (fun a => point a b c) else [] := by
        intro c b
        have : ∀ a, point a b c 2 = c := fun a => rfl
        simp only [this, filter_const]
        split_ifs <;> rfl
      have e2 : ∀ c, ((down (g.x0 1) (g.x1 1)).flatMap fun b => if c = level then (up (g.x0 0) (g.x1 0)).map (fun a => point a b c) else []) =
          if c = level then ((down (g.x0 1) (g.x1 1)).flatMap fun b => (up (g.x0 0) (g.x1 0)).map (fun a => point a b c)) else [] := by
        intro c
        split_ifs <;> simp
      simp only [e, e2, flatMap_single (up_nodup _ _), mem_up]
      by_cases hl : g.x0 2 ≤ level ∧ level < g.x1 2
      · rw [if_pos hl, if_neg (by simp [hl])]
        unfold frame Frame.nodes up down
        simp [h, List.map_map, Function.comp_def, List.flatMap_map]
      · rw [if_neg hl, if_pos ⟨h, hl⟩]

theorem Frame.nodes_length (f : Frame) : f.nodes.length = f.height * f.width := by
  unfold Frame.nodes
  simp [List.length_flatMap]

theorem nodes_get (f : Frame) {r c : Nat} (hr : r < f.height) (hc : c < f.width) : f.nodes[r * f.width + c]? = some (f.node r c) := by
  unfold Frame.nodes
  generalize f.height = h at hr
  have key : ∀ h, r < h → ((List.range h).flatMap fun r => (List.range f.width).map fun c => f.node r c)[r * f.width + c]? = some (f.node r c) := by
    intro h
    induction h with
    | zero => intro hr; omega
    | succ h ih =>
      intro hr
      rw [List.range_succ, List.flatMap_append]
      have hlen : ((List.range h).flatMap fun r => (List.range f.width).map fun c => f.node r c).length = h * f.width := by simp [List.length_flatMap]
      by_cases e : r = h
      · subst e
        rw [List.getElem?_append_right (by omega), hlen]
        simp [hc]
      · have hrh : r < h := by omega
        rw [List.getElem?_append_left, ih hrh]
        rw [hlen]
        calc r * f.width + c < (r + 1) * f.width := by rw [Nat.add_mul]; omega
          _ ≤ h * f.width := Nat.mul_le_mul_right _ hrh
  exact key h hr

/-! ## Range and shade -/

section
variable {α : Type} [Field α] [LinearOrder α] [IsStrictOrderedRing α] [FloorRing α]

/-- The loop over the nodes on plain values. -/
def widen (m : α × α) (v : α) : α × α := if v > m.2 then (m.1, v) else if v < m.1 then (v, m.2) else m

omit [Field α] [IsStrictOrderedRing α] [FloorRing α] in
/-- With an interval to start from, the loop widens it just as far as necessary. -/
theorem widen_spec (vs : List α) {m : α × α} (hm : m.1 ≤ m.2) :
    (vs.foldl widen m).1 ≤ m.1 ∧ m.2 ≤ (vs.foldl widen m).2 ∧ (∀ v ∈ vs, (vs.foldl widen m).1 ≤ v ∧ v ≤ (vs.foldl widen m).2) ∧
      ((vs.foldl widen m).1 = m.1 ∨ (vs.foldl widen m).1 ∈ vs) ∧ ((vs.foldl widen m).2 = m.2 ∨ (vs.foldl widen m).2 ∈ vs) := by
  induction vs generalizing m with
  | nil => simp
  | cons v vs ih =>
    rw [List.foldl_cons]
    by_cases h1 : v > m.2
    · have hw : widen m v = (m.1, v) := if_pos h1
      rw [hw]
      obtain ⟨a, b, c, d, e⟩ := ih (m := (m.1, v)) (hm.trans h1.le)
      refine ⟨a, h1.le.trans b, ?_, ?_, ?_⟩
      · intro u hu
        rcases List.mem_cons.1 hu with rfl | hu
        · exact ⟨a.trans (hm.trans h1.le), b⟩
        · exact c u hu
      · rcases d with d | d
        · exact Or.inl d
        · exact Or.inr (List.mem_cons_of_mem _ d)
      · rcases e with e | e
        · exact Or.inr (by rw [e]; exact List.mem_cons_self)
        · exact Or.inr (List.mem_cons_of_mem _ e)
    · by_cases h2 : v < m.1
      · have hw : widen m v = (v, m.2) := by unfold widen; rw [if_neg h1, if_pos h2]
        rw [hw]
        obtain ⟨a, b, c, d, e⟩ := ih (m := (v, m.2)) (h2.le.trans hm)
        refine ⟨a.trans h2.le, b, ?_, ?_, ?_⟩
        · intro u hu
          rcases List.mem_cons.1 hu with rfl | hu
          · exact ⟨a, (h2.le.trans hm).trans b⟩
          · exact c u hu
        · rcases d with d | d
          · exact Or.inr (by rw [d]; exact List.mem_cons_self)
          · exact Or.inr (List.mem_cons_of_mem _ d)
        · rcases e with e | e
          · exact Or.inl e
          · exact Or.inr (List.mem_cons_of_mem _ e)
      · have hw : widen m v = m := by unfold widen; rw [if_neg h1, if_neg h2]
        rw [hw]
        obtain ⟨a, b, c, d, e⟩ := ih hm
        refine ⟨a, b, ?_, ?_, ?_⟩
        · intro u hu
          rcases List.mem_cons.1 hu with rfl | hu
          · exact ⟨a.trans (not_lt.1 h2), (not_lt.1 h1).trans b⟩
          · exact c u hu
        · rcases d with d | d
          · exact Or.inl d
          · exact Or.inr (List.mem_cons_of_mem _ d)
        · rcases e with e | e
          · exact Or.inl e
          · exact Or.inr (List.mem_cons_of_mem _ e)

/-- Every node of the grid has the value `φ`. -/
def Values {T : Type} (g : Shape) (value : T → Outcome α) (data : Int → T) (φ : Int → α) : Prop := ∀ n : Nat, n < g.nodes.toNat → value (data n) = .ok (φ n)

omit [Field α] [IsStrictOrderedRing α] [FloorRing α] in
theorem range_eq {T : Type} {g : Shape} (h0 : g.ghosts = 0) {value : T → Outcome α} {data : Int → T} {φ : Int → α} (hv : Values g value data φ) (zoomin zoomax : α) :
    range g value data zoomin zoomax = .ok (((List.range g.nodes.toNat).map fun n : Nat => φ n).foldl widen (zoomin, zoomax)) := by
  unfold range
  have hb : ∀ n : Nat, n < g.nodes.toNat → 0 ≤ (n : Int) ∧ (n : Int) < g.cells := by
    intro n hn
    have := Convert.cells_eq h0
    omega
  have key : ∀ (L : List Nat) (m : α × α), (∀ n ∈ L, n < g.nodes.toNat) → L.foldlM (fun (m : α × α) (n : Nat) => (deref g data (g.atNode .serial n)).bind fun c => (value c).bind fun v =>
      .ok (if v > m.2 then (m.1, v) else if v < m.1 then (v, m.2) else m)) m = Outcome.ok ((L.map fun n : Nat => φ n).foldl widen m) := by
    intro L
    induction L with
    | nil => intro m _; rfl
    | cons n L ih =>
      intro m hL
      have hn := hL n (by simp)
      have hd : deref g data (g.atNode .serial n) = .ok (data n) := if_pos (hb n hn)
      rw [List.foldlM_cons, hd, Outcome.ok_bind, hv n hn, Outcome.ok_bind, Outcome.bind_eq, Outcome.ok_bind, ih _ fun k hk => hL k (by simp [hk])]
      rfl
  exact key _ _ fun n hn => List.mem_range.1 hn

/-- **C42.** A value in a non-empty range has a shade, from 0 (black) at the lower end to 255 (white) at the upper. -/
theorem shade_spec {m : α × α} (hm : m.1 < m.2) {v : α} (h0 : m.1 ≤ v) (h1 : v ≤ m.2) :
    ∃ b, shade m v = .ok b ∧ b ≤ 255 ∧ (b : α) ≤ 255 * ((v - m.1) / (m.2 - m.1)) ∧ 255 * ((v - m.1) / (m.2 - m.1)) < b + 1 := by
  have hpos : 0 < m.2 - m.1 := sub_pos.2 hm
  have q0 : 0 ≤ (v - m.1) / (m.2 - m.1) := div_nonneg (sub_nonneg.2 h0) hpos.le
  have q1 : (v - m.1) / (m.2 - m.1) ≤ 1 := (div_le_one hpos).2 (by linarith)
  have hf0 : 0 ≤ ⌊255 * ((v - m.1) / (m.2 - m.1))⌋ := Int.floor_nonneg.2 (by linarith)
  refine ⟨⌊255 * ((v - m.1) / (m.2 - m.1))⌋.toNat, ?_, ?_, ?_, ?_⟩
  · unfold shade toByte
    rw [if_neg hpos.ne', if_pos ⟨by linarith, by linarith⟩]
  · have : ⌊255 * ((v - m.1) / (m.2 - m.1))⌋ ≤ 255 := by
      rw [← Int.floor_intCast (R := α) 255]
      exact Int.floor_le_floor (by push_cast; linarith)
    omega
  · have e : ((⌊255 * ((v - m.1) / (m.2 - m.1))⌋.toNat : Nat) : α) = (⌊255 * ((v - m.1) / (m.2 - m.1))⌋ : α) := by
      rw [← Int.cast_natCast, Int.toNat_of_nonneg hf0]
    rw [e]; exact Int.floor_le _
  · have e : ((⌊255 * ((v - m.1) / (m.2 - m.1))⌋.toNat : Nat) : α) = (⌊255 * ((v - m.1) / (m.2 - m.1))⌋ : α) := by
      rw [← Int.cast_natCast, Int.toNat_of_nonneg hf0]
    rw [e]; exact Int.lt_floor_add_one _

/-- **C42.** The ends of the range are black and white. -/
theorem shade_ends {m : α × α} (hm : m.1 < m.2) : shade m m.1 = .ok 0 ∧ shade m m.2 = .ok 255 := by
  have hpos : m.2 - m.1 ≠ 0 := (sub_pos.2 hm).ne'
  constructor
  · unfold shade toByte
    rw [if_neg hpos, sub_self, zero_div, mul_zero, if_pos (by norm_num), Int.floor_zero]
    rfl
  · unfold shade toByte
    rw [if_neg hpos, div_self hpos, mul_one, if_pos (by norm_num)]
    have : ⌊(255 : α)⌋ = 255 := by exact_mod_cast Int.floor_intCast (R := α) 255
    rw [this]
    rfl

/-- **C42.** Larger values are not darker. -/
theorem shade_mono {m : α × α} (hm : m.1 < m.2) {v w : α} (h0 : m.1 ≤ v) (hvw : v ≤ w) (h1 : w ≤ m.2) {b c : Nat} (hb : shade m v = .ok b) (hc : shade m w = .ok c) : b ≤ c := by
  obtain ⟨b', e, -, hb1, -⟩ := shade_spec hm h0 (hvw.trans h1)
  obtain ⟨c', e', -, -, hc2⟩ := shade_spec hm (h0.trans hvw) h1
  rw [hb] at e; rw [hc] at e'; cases e; cases e'
  have hpos : 0 < m.2 - m.1 := sub_pos.2 hm
  have : (v - m.1) / (m.2 - m.1) ≤ (w - m.1) / (m.2 - m.1) := div_le_div_of_nonneg_right (by linarith) hpos.le
  have : (b : α) < c + 1 := by linarith
  have : b < c + 1 := by exact_mod_cast this
  omega

/-- Contours leave the bytes in range. -/
def Marks {T : Type} (mark : T → α → Nat → Outcome Nat) : Prop := ∀ c v b, b ≤ 255 → ∃ b', mark c v b = .ok b' ∧ b' ≤ 255

omit [IsStrictOrderedRing α] [FloorRing α] in
theorem contour_marks {coninv : Bool} {levels : List α} {tol f : α} {b : Nat} (hb : b ≤ 255) : ∃ b', contour coninv levels tol (.ok f) b = .ok b' ∧ b' ≤ 255 := by
  unfold contour
  induction levels generalizing b with
  | nil => exact ⟨b, rfl, hb⟩
  | cons l ls ih =>
    rw [List.foldlM_cons, Outcome.ok_bind, Outcome.bind_eq, Outcome.ok_bind]
    apply ih
    split_ifs <;> omega

omit [IsStrictOrderedRing α] [FloorRing α] in
theorem scalarContour_marks {dim mode : Nat} {coninv : Bool} {levels : List α} {tol : α} : Marks (fun (_ : α) v b => scalarContour dim mode coninv levels tol v b) := by
  intro _ v b hb
  unfold scalarContour
  split_ifs
  · exact contour_marks hb
  · refine ⟨_, rfl, ?_⟩
    induction levels generalizing b with
    | nil => exact hb
    | cons l ls ih => rw [List.foldl_cons]; apply ih; split_ifs <;> omega
  · exact ⟨b, rfl, hb⟩

omit [IsStrictOrderedRing α] in
/-- Painting as many positions as there is room for. -/
theorem paint_all {T : Type} {g : Shape} {value : T → Outcome α} {mark : T → α → Nat → Outcome Nat} {data : Int → T} {m : α × α} {byte : (Nat → Int) → Nat} {L : List (Nat → Int)}
    (h : ∀ x ∈ L, ∃ c v b, gridAt .serial g data x = .ok c ∧ value c = .ok v ∧ shade m v = .ok b ∧ mark c v b = .ok (byte x)) {n : Nat} {buffer : List (Option Nat)}
    (hn : n + L.length = buffer.length) :
    L.foldlM (paint g value mark data m) (n, buffer) = .ok (n + L.length, buffer.take n ++ L.map fun x => some (byte x)) := by
  induction L generalizing n buffer with
  | nil => 
    rw [List.length_nil, Nat.add_zero] at hn
    rw [List.foldlM_nil, List.length_nil, Nat.add_zero, List.map_nil, List.append_nil, hn, List.take_length]
    rfl
  | cons x L ih =>
    obtain ⟨c, v, b, h1, h2, h3, h4⟩ := h x (by simp)
    rw [List.length_cons] at hn
    have e : paint g value mark data m (n, buffer) x = .ok (n + 1, buffer.set n (some (byte x))) := by
      unfold paint
      rw [h1, Outcome.ok_bind, h2, Outcome.ok_bind, if_pos (by show n < buffer.length; omega), h3, Outcome.ok_bind, h4, Outcome.ok_bind]
    rw [List.foldlM_cons, e, Outcome.bind_eq, Outcome.ok_bind, ih (fun y hy => h y (by simp [hy])) (by rw [List.length_set]; omega)]
    congr 2
    · rw [List.length_cons]; omega
    · have hlt : n < buffer.length := by omega
      have e1 : (buffer.set n (some (byte x))).take (n + 1) = buffer.take n ++ [some (byte x)] := by
        rw [List.take_add_one, List.take_set_of_le (le_refl n), List.getElem?_set_self hlt]; rfl
      rw [e1, List.map_cons, List.append_assoc]; rfl

/-- The image that belongs on the paper: every node of the frame in its place, shaded linearly between the ends `lo`, `hi` of the range. -/
structure Shows {T : Type} (g : Shape) (f : Frame) (φ : Int → α) (mark : T → α → Nat → Outcome Nat) (data : Int → T) (lo hi : α) (image : List (Option Nat)) : Prop where
  size : image.length = f.height * f.width
  pixel : ∀ r c, r < f.height → c < f.width → ∃ b b', image[r * f.width + c]? = some (some b') ∧ b' ≤ 255 ∧
    shade (lo, hi) (φ (g.rawOffset (f.node r c))) = .ok b ∧ mark (data (g.rawOffset (f.node r c))) (φ (g.rawOffset (f.node r c))) b = .ok b'

omit [Field α] [LinearOrder α] [IsStrictOrderedRing α] [FloorRing α] in
theorem frame_isNode {g : Shape} (hd : g.dim = 1 ∨ g.dim = 2 ∨ g.dim = 3) {axis : Nat} (ha : axis < 3) {level : Int} (hl : g.dim = 3 → g.x0 axis ≤ level ∧ level < g.x1 axis)
    {r c : Nat} (hr : r < (frame g axis level).height) (hc : c < (frame g axis level).width) : g.IsNode ((frame g axis level).node r c) := by
  intro j hj
  unfold frame at hr hc ⊢
  dsimp only at hr hc ⊢
  split_ifs at hr hc ⊢ with h1 h2 h3 h4
  · have : j = 0 := by omega
    subst this
    simp only [point, if_true] at hr hc ⊢
    omega
  · have : j = 0 ∨ j = 1 := by omega
    rcases this with rfl | rfl <;> simp [point] at hr hc ⊢ <;> omega
  all_goals
    have h3d : g.dim = 3 := by omega
    have hl := hl h3d
    have hj' : j = 0 ∨ j = 1 ∨ j = 2 := by omega
    simp only at hr hc
    have ha' : axis = 0 ∨ axis = 1 ∨ axis = 2 := by omega
    rcases ha' with rfl | rfl | rfl <;> rcases hj' with rfl | rfl | rfl <;> simp only [point] <;> (first | omega | (norm_num; omega))

/-- Every node can be read and drawn. -/
theorem node_pixel {T : Type} {g : Shape} (hg : g.Wf) (h0 : g.ghosts = 0) {value : T → Outcome α} {mark : T → α → Nat → Outcome Nat} (hmark : Marks mark) {data : Int → T} {φ : Int → α}
    (hv : Values g value data φ) {m : α × α} (hlt : m.1 < m.2) (hm : ∀ n : Nat, n < g.nodes.toNat → m.1 ≤ φ n ∧ φ n ≤ m.2) {x : Nat → Int} (hx : g.IsNode x) :
    ∃ b b', gridAt .serial g data x = .ok (data (g.rawOffset x)) ∧ value (data (g.rawOffset x)) = .ok (φ (g.rawOffset x)) ∧
      shade m (φ (g.rawOffset x)) = .ok b ∧ mark (data (g.rawOffset x)) (φ (g.rawOffset x)) b = .ok b' ∧ b' ≤ 255 := by
  have hc : g.IsCell x := fun j hj => by have := hx j hj; omega
  have hb := Shape.rawOffset_bounds hg hc
  have hcn := Convert.cells_eq h0
  have hat : g.atVec .serial x = g.rawOffset x := Shape.atVec_eq_raw .serial fun j hj => checkBoundary_inside _ _ _ _ _ _ (hx j hj)
  obtain ⟨n, hn⟩ : ∃ n : Nat, g.rawOffset x = n := ⟨(g.rawOffset x).toNat, by omega⟩
  have hn1 : n < g.nodes.toNat := by omega
  obtain ⟨b, hb1, hb2, -⟩ := shade_spec hlt (hm n hn1).1 (hm n hn1).2
  obtain ⟨b', hb', hb3⟩ := hmark (data n) (φ n) b hb2
  refine ⟨b, b', ?_, ?_, ?_, ?_, hb3⟩
  · unfold gridAt deref; rw [hat]; exact if_pos hb
  · rw [hn]; exact hv n hn1
  · rw [hn]; exact hb1
  · rw [hn]; exact hb'

/-- **C42.** If the bounds passed are a proper interval, the picture is complete: every byte is written, in its place, with a shade between 0 and 255 of the value at that node
with respect to a range that covers the interval and all values. -/
theorem fieldToPng_spec {T : Type} {g : Shape} (hg : g.Wf) (h0 : g.ghosts = 0) (hd : g.dim = 1 ∨ g.dim = 2 ∨ g.dim = 3) {axis : Nat} (ha : axis < 3) {level : Int}
    (hl : g.dim = 3 → g.x0 axis ≤ level ∧ level < g.x1 axis) {value : T → Outcome α} {mark : T → α → Nat → Outcome Nat} (hmark : Marks mark) {data : Int → T} {φ : Int → α}
    (hv : Values g value data φ) {zoomin zoomax : α} (hz : zoomin < zoomax) {buffer : List (Option Nat)} (hbuf : buffer.length = (frame g axis level).height * (frame g axis level).width) :
    ∃ image lo hi, fieldToPng g value value mark zoomin zoomax axis level data buffer = .ok image ∧ lo ≤ zoomin ∧ zoomax ≤ hi ∧
      (∀ n : Nat, n < g.nodes.toNat → lo ≤ φ n ∧ φ n ≤ hi) ∧
      (lo = zoomin ∨ ∃ n : Nat, n < g.nodes.toNat ∧ lo = φ n) ∧ (hi = zoomax ∨ ∃ n : Nat, n < g.nodes.toNat ∧ hi = φ n) ∧
      Shows g (frame g axis level) φ mark data lo hi image := by
  classical
  have hr := range_eq h0 hv zoomin zoomax
  obtain ⟨m1, m2, m3, m4, m5⟩ := widen_spec ((List.range g.nodes.toNat).map fun n : Nat => φ n) (m := (zoomin, zoomax)) hz.le
  generalize hmm : ((List.range g.nodes.toNat).map fun n : Nat => φ n).foldl widen (zoomin, zoomax) = m at hr m1 m2 m3 m4 m5
  have hlt : m.1 < m.2 := lt_of_le_of_lt m1 (lt_of_lt_of_le hz m2)
  have hvis : visited g axis level = (frame g axis level).nodes := by
    rw [visited_eq hd ha, if_neg]
    rintro ⟨h3, hc⟩
    exact hc (hl h3)
  have hpix := fun x (hx : g.IsNode x) => node_pixel hg h0 hmark hv hlt (fun n hn => m3 (φ n) (List.mem_map.2 ⟨n, List.mem_range.2 hn, rfl⟩)) hx
  let byte : (Nat → Int) → Nat := fun x => if h : ∃ b', ∃ b, shade m (φ (g.rawOffset x)) = .ok b ∧ mark (data (g.rawOffset x)) (φ (g.rawOffset x)) b = .ok b' then h.choose else 0
  have hbyte : ∀ x, g.IsNode x → ∃ b, shade m (φ (g.rawOffset x)) = .ok b ∧ mark (data (g.rawOffset x)) (φ (g.rawOffset x)) b = .ok (byte x) ∧ byte x ≤ 255 := by
    intro x hx
    obtain ⟨b, b', -, -, h3, h4, h5⟩ := hpix x hx
    have hex : ∃ b', ∃ b, shade m (φ (g.rawOffset x)) = .ok b ∧ mark (data (g.rawOffset x)) (φ (g.rawOffset x)) b = .ok b' := ⟨b', b, h3, h4⟩
    obtain ⟨b1, e1, e2⟩ := hex.choose_spec
    have hb1 : byte x = hex.choose := dif_pos hex
    refine ⟨b1, e1, by rw [hb1]; exact e2, ?_⟩
    rw [h3] at e1; cases e1
    rw [h4] at e2; cases e2
    rw [hb1]; exact h5
  have hnodes : ∀ x ∈ (frame g axis level).nodes, g.IsNode x := by
    intro x hx
    unfold Frame.nodes at hx
    rw [List.mem_flatMap] at hx
    obtain ⟨r, hr', hx⟩ := hx
    rw [List.mem_map] at hx
    obtain ⟨c, hc', rfl⟩ := hx
    exact frame_isNode hd ha hl (List.mem_range.1 hr') (List.mem_range.1 hc')
  have hpaint := paint_all (g := g) (value := value) (mark := mark) (data := data) (m := m) (byte := byte) (L := (frame g axis level).nodes) (n := 0) (buffer := buffer)
    (fun x hx => by
      obtain ⟨b, b', h1, h2, h3, h4, -⟩ := hpix x (hnodes x hx)
      obtain ⟨b1, e1, e2, -⟩ := hbyte x (hnodes x hx)
      exact ⟨_, _, b1, h1, h2, e1, e2⟩)
    (by rw [Frame.nodes_length, hbuf, zero_add])
  refine ⟨(frame g axis level).nodes.map fun x => some (byte x), m.1, m.2, ?_, m1, m2, ?_, ?_, ?_, ?_, ?_⟩
  · unfold fieldToPng
    rw [if_neg (by omega), hr, Outcome.ok_bind, hvis, hpaint, Outcome.ok_bind]
    simp
  · intro n hn; exact m3 (φ n) (List.mem_map.2 ⟨n, List.mem_range.2 hn, rfl⟩)
  · rcases m4 with e | e
    · exact Or.inl e
    · obtain ⟨n, hn, e⟩ := List.mem_map.1 e; exact Or.inr ⟨n, List.mem_range.1 hn, e.symm⟩
  · rcases m5 with e | e
    · exact Or.inl e
    · obtain ⟨n, hn, e⟩ := List.mem_map.1 e; exact Or.inr ⟨n, List.mem_range.1 hn, e.symm⟩
  · rw [List.length_map, Frame.nodes_length]
  · intro r c hr' hc'
    obtain ⟨b, e1, e2, e3⟩ := hbyte _ (frame_isNode hd ha hl hr' hc')
    refine ⟨b, byte ((frame g axis level).node r c), ?_, e3, e1, e2⟩
    rw [List.getElem?_map, nodes_get _ hr' hc']
    rfl

/-! ## The whole command -/

omit [IsStrictOrderedRing α] [FloorRing α] [Field α] [LinearOrder α] in
/-- The buffer has one byte for each place in the picture. -/
theorem imageSize_eq {g : Shape} (hg : g.Wf) (hd : g.dim = 1 ∨ g.dim = 2 ∨ g.dim = 3) {axis : Int} (h3 : g.dim = 3 → 0 ≤ axis ∧ axis < 3)
    (h12 : g.dim < 3 → axis = -1) (level : Int) :
    imageSize g.dim g.x0 g.x1 axis = .ok ((frame g axis.toNat level).width, (frame g axis.toNat level).height) := by
  have hs := fun j hj => hg.side j hj
  rcases hd with h | h | h
  · have := hs 0 (by omega)
    rw [h12 (by omega)]
    simp [imageSize, frame, h, List.range_succ]
    omega
  · have := hs 0 (by omega)
    have := hs 1 (by omega)
    rw [h12 (by omega)]
    simp [imageSize, frame, h, List.range_succ]
    omega
  · have := hs 0 (by omega)
    have := hs 1 (by omega)
    have := hs 2 (by omega)
    have ha : axis = 0 ∨ axis = 1 ∨ axis = 2 := by have := h3 h; omega
    rcases ha with rfl | rfl | rfl <;> simp [imageSize, frame, h, List.range_succ] <;> omega

/-- The command with the bounds `zoomin`, `zoomax` and `value` for both purposes. -/
def run {T : Type} (g : Shape) (scale value : T → Outcome α) (mark : T → α → Nat → Outcome Nat) (zoomin zoomax : α) (data : Int → T) (axis level : Int) (invert : Bool) :
    Outcome ((Int × Int) × List (Option Nat)) :=
  mmsp2png g (fun a l buffer => fieldToPng g scale value mark zoomin zoomax a l data buffer) axis level invert

/-- **C42.** `mmsp2png` without options, and with a slice inside a three-dimensional grid, writes a complete picture of the right size: every pixel is the shade of the node that
belongs there, with respect to the smallest range that holds 0, 1 (`zoomin`, `zoomax`) and all values; `--inv` exchanges black and white. The full claim — the same for `--zoom`
and for every combination of options — is false: see `zoom_undefined`, `slice_outside_blank`, `slice_plane_aborts`, `exclude_one_undefined`. -/
theorem mmsp2png_partial {T : Type} {g : Shape} (hg : g.Wf) (h0 : g.ghosts = 0) (hd : g.dim = 1 ∨ g.dim = 2 ∨ g.dim = 3) {axis level : Int} (h12 : g.dim < 3 → axis = -1)
    (h3 : g.dim = 3 → (0 ≤ axis ∧ axis < 3 ∧ g.x0 axis.toNat ≤ level ∧ level < g.x1 axis.toNat))
    {value : T → Outcome α} {mark : T → α → Nat → Outcome Nat} (hmark : Marks mark) {data : Int → T} {φ : Int → α} (hv : Values g value data φ) {zoomin zoomax : α} (hz : zoomin < zoomax) :
    ∃ image lo hi, run g value value mark zoomin zoomax data axis level false =
        .ok (((frame g axis.toNat level).width, (frame g axis.toNat level).height), image) ∧
      run g value value mark zoomin zoomax data axis level true =
        .ok (((frame g axis.toNat level).width, (frame g axis.toNat level).height), image.map fun b => b.map fun b => 255 - b) ∧
      lo ≤ zoomin ∧ zoomax ≤ hi ∧ (∀ n : Nat, n < g.nodes.toNat → lo ≤ φ n ∧ φ n ≤ hi) ∧
      (lo = zoomin ∨ ∃ n : Nat, n < g.nodes.toNat ∧ lo = φ n) ∧ (hi = zoomax ∨ ∃ n : Nat, n < g.nodes.toNat ∧ hi = φ n) ∧
      Shows g (frame g axis.toNat level) φ mark data lo hi image := by
  have hax : axis.toNat < 3 := by
    rcases hd with h | h | h
    · have := h12 (by omega); omega
    · have := h12 (by omega); omega
    · have := h3 h; omega
  have hcs : chooseSlice g.dim g.x0 g.x1 axis level = (axis, level) := by
    unfold chooseSlice
    rw [if_neg]
    rintro ⟨h, h'⟩
    have := h3 h
    omega
  have hsz := imageSize_eq hg hd (axis := axis) (fun h => by have := h3 h; omega) h12 level
  obtain ⟨image, lo, hi, e, r⟩ := fieldToPng_spec hg h0 hd hax (level := level) (fun h => (h3 h).2.2) hmark hv hz
    (buffer := List.replicate ((frame g axis.toNat level).width * (frame g axis.toNat level).height) none) (by rw [List.length_replicate, Nat.mul_comm])
  have hlen : (((frame g axis.toNat level).width : Int) * ((frame g axis.toNat level).height : Int)).toNat = (frame g axis.toNat level).width * (frame g axis.toNat level).height := by
    rw [← Int.natCast_mul, Int.toNat_natCast]
  refine ⟨image, lo, hi, ?_, ?_, r⟩
  · unfold run mmsp2png
    rw [hcs]
    dsimp only
    rw [hsz, Outcome.ok_bind]
    dsimp only
    rw [hlen, e, Outcome.ok_bind]
    rfl
  · unfold run mmsp2png
    rw [hcs]
    dsimp only
    rw [hsz, Outcome.ok_bind]
    dsimp only
    rw [hlen, e, Outcome.ok_bind]
    rfl

/-! ## Slices that are not there -/

omit [IsStrictOrderedRing α] in
/-- **C42, negation.** A slice outside the grid gives a picture in which no byte was ever written. -/
theorem slice_outside_blank {T : Type} {g : Shape} (h0 : g.ghosts = 0) (hd : g.dim = 3) (hg : g.Wf) {axis level : Int} (ha : 0 ≤ axis ∧ axis < 3)
    (hl : ¬ (g.x0 axis.toNat ≤ level ∧ level < g.x1 axis.toNat)) {scale value : T → Outcome α} {mark : T → α → Nat → Outcome Nat} {data : Int → T} {φ : Int → α}
    (hv : Values g scale data φ) (zoomin zoomax : α) :
    run g scale value mark zoomin zoomax data axis level false =
      .ok (((frame g axis.toNat level).width, (frame g axis.toNat level).height), List.replicate ((frame g axis.toNat level).width * (frame g axis.toNat level).height) none) := by
  have hcs : chooseSlice g.dim g.x0 g.x1 axis level = (axis, level) := by
    unfold chooseSlice
    exact if_neg (by omega)
  have hsz := imageSize_eq hg (Or.inr (Or.inr hd)) (axis := axis) (fun _ => ha) (fun h => absurd h (by omega)) level
  have hlen : (((frame g axis.toNat level).width : Int) * ((frame g axis.toNat level).height : Int)).toNat = (frame g axis.toNat level).width * (frame g axis.toNat level).height := by
    rw [← Int.natCast_mul, Int.toNat_natCast]
  unfold run mmsp2png
  rw [hcs]
  dsimp only
  rw [hsz, Outcome.ok_bind]
  dsimp only
  rw [hlen]
  unfold fieldToPng
  rw [if_neg (by omega), range_eq h0 hv, Outcome.ok_bind, visited_eq (Or.inr (Or.inr hd)) (by omega), if_pos ⟨hd, hl⟩]
  rfl

omit [IsStrictOrderedRing α] in
/-- **C42, negation.** `--slice=X`, `Y` or `Z` without a level, for which the level stays at -1, on any grid whose coordinates start at 0 or later: announced as the middle of the
grid, drawn as nothing. -/
theorem slice_without_level {T : Type} {g : Shape} (h0 : g.ghosts = 0) (hd : g.dim = 3) (hg : g.Wf) (hx : ∀ j, j < 3 → 0 ≤ g.x0 j) {axis : Int} (ha : 0 ≤ axis ∧ axis < 3)
    {scale value : T → Outcome α} {mark : T → α → Nat → Outcome Nat} {data : Int → T} {φ : Int → α} (hv : Values g scale data φ) (zoomin zoomax : α) :
    ∃ size n, run g scale value mark zoomin zoomax data axis (-1) false = .ok (size, List.replicate n none) ∧ 0 < n := by
  refine ⟨_, _, slice_outside_blank h0 hd hg ha (fun h => ?_) hv zoomin zoomax, ?_⟩
  · have := hx axis.toNat (by omega); omega
  · have s0 := hg.side 0 (by omega)
    have s1 := hg.side 1 (by omega)
    have s2 := hg.side 2 (by omega)
    have ha : axis = 0 ∨ axis = 1 ∨ axis = 2 := by omega
    rcases ha with rfl | rfl | rfl <;> simp [frame, hd] <;> omega

omit [IsStrictOrderedRing α] in
/-- **C42.** Without `--slice` a three-dimensional grid is cut across the third axis, at the coordinate that is half its length. -/
theorem default_slice {T : Type} {g : Shape} (hd : g.dim = 3) {axis level : Int} (ha : axis < 0) (hl : level < g.x0 2) (scale value : T → Outcome α) (mark : T → α → Nat → Outcome Nat)
    (zoomin zoomax : α) (data : Int → T) (invert : Bool) :
    run g scale value mark zoomin zoomax data axis level invert = run g scale value mark zoomin zoomax data 2 (Int.tdiv (g.x1 2 - g.x0 2) 2) invert := by
  have e1 : chooseSlice g.dim g.x0 g.x1 axis level = (2, Int.tdiv (g.x1 2 - g.x0 2) 2) := by
    unfold chooseSlice
    rw [if_pos ⟨hd, ha⟩, if_pos hl]
  have e2 : chooseSlice g.dim g.x0 g.x1 2 (Int.tdiv (g.x1 2 - g.x0 2) 2) = (2, Int.tdiv (g.x1 2 - g.x0 2) 2) := by
    unfold chooseSlice
    exact if_neg (by omega)
  unfold run mmsp2png
  rw [e1, e2]

omit [IsStrictOrderedRing α] in
/-- **C42, negation.** That is inside the grid if it starts at 0, but not if it starts further out than half its length: then nothing is drawn. -/
theorem default_slice_blank {T : Type} {g : Shape} (h0 : g.ghosts = 0) (hd : g.dim = 3) (hg : g.Wf) (hx : 0 ≤ g.x0 2) (hfar : g.x1 2 - g.x0 2 < 2 * g.x0 2)
    {scale value : T → Outcome α} {mark : T → α → Nat → Outcome Nat} {data : Int → T} {φ : Int → α} (hv : Values g scale data φ) (zoomin zoomax : α) :
    ∃ size n, run g scale value mark zoomin zoomax data (-1) (-1) false = .ok (size, List.replicate n none) ∧ 0 < n := by
  have s0 := hg.side 0 (by omega)
  have s1 := hg.side 1 (by omega)
  have s2 := hg.side 2 (by omega)
  rw [default_slice hd (by omega) (by omega)]
  refine ⟨_, _, slice_outside_blank h0 hd hg (by omega) (fun h => ?_) hv zoomin zoomax, ?_⟩
  · have h1 : g.x0 2 ≤ Int.tdiv (g.x1 2 - g.x0 2) 2 := h.1
    rw [Int.tdiv_eq_ediv_of_nonneg (by omega)] at h1
    omega
  · simp [frame, hd]; omega

/-- **C42, negation.** `--slice` on a two-dimensional grid: the buffer is a line, the second row finds it full, and the assertion ends the program. -/
theorem slice_plane_aborts {T : Type} {g : Shape} (hg : g.Wf) (h0 : g.ghosts = 0) (hd : g.dim = 2) {axis : Int} (ha : 0 ≤ axis ∧ axis < 2) (hlong : 2 ≤ g.x1 axis.toNat - g.x0 axis.toNat)
    {value : T → Outcome α} {mark : T → α → Nat → Outcome Nat} (hmark : Marks mark) {data : Int → T} {φ : Int → α} (hv : Values g value data φ)
    {zoomin zoomax : α} (hz : zoomin < zoomax) (level : Int) :
    run g value value mark zoomin zoomax data axis level false = .abort 134 := by
  have s0 := hg.side 0 (by omega)
  have s1 := hg.side 1 (by omega)
  have hcs : chooseSlice g.dim g.x0 g.x1 axis level = (axis, level) := by
    unfold chooseSlice
    exact if_neg (by omega)
  have ha' : axis = 0 ∨ axis = 1 := by omega
  have hsz : ∃ w : Nat, imageSize g.dim g.x0 g.x1 axis = .ok ((w : Int), 1) ∧ w < (g.x1 1 - g.x0 1).toNat * (g.x1 0 - g.x0 0).toNat := by
    rcases ha' with rfl | rfl
    · refine ⟨(g.x1 1 - g.x0 1).toNat, ?_, ?_⟩
      · simp [imageSize, hd, List.range_succ]; omega
      · have h2 : 2 ≤ (g.x1 0 - g.x0 0).toNat := by simp at hlong; omega
        have h1 : 0 < (g.x1 1 - g.x0 1).toNat := by omega
        nlinarith
    · refine ⟨(g.x1 0 - g.x0 0).toNat, ?_, ?_⟩
      · simp [imageSize, hd, List.range_succ]; omega
      · have h2 : 2 ≤ (g.x1 1 - g.x0 1).toNat := by simp at hlong; omega
        have h1 : 0 < (g.x1 0 - g.x0 0).toNat := by omega
        nlinarith
  obtain ⟨w, hw, hlt⟩ := hsz
  unfold run mmsp2png
  rw [hcs]
  dsimp only
  rw [hw, Outcome.ok_bind]
  dsimp only
  unfold fieldToPng
  rw [if_neg (by omega)]
  have hr := range_eq h0 hv zoomin zoomax
  obtain ⟨m1, m2, m3, -, -⟩ := widen_spec ((List.range g.nodes.toNat).map fun n : Nat => φ n) (m := (zoomin, zoomax)) hz.le
  generalize ((List.range g.nodes.toNat).map fun n : Nat => φ n).foldl widen (zoomin, zoomax) = m at hr m1 m2 m3
  rw [hr, Outcome.ok_bind, visited_eq (Or.inr (Or.inl hd)) (by omega), if_neg (by omega)]
  have hlen : ((frame g axis.toNat level).nodes).length = (g.x1 1 - g.x0 1).toNat * (g.x1 0 - g.x0 0).toNat := by
    rw [Frame.nodes_length]; simp [frame, hd]
  have hread : ∀ x ∈ (frame g axis.toNat level).nodes, ∃ c v b b', gridAt .serial g data x = .ok c ∧ value c = .ok v ∧ shade m v = .ok b ∧ mark c v b = .ok b' := by
    intro x hx
    unfold Frame.nodes at hx
    rw [List.mem_flatMap] at hx
    obtain ⟨r, hr', hx⟩ := hx
    rw [List.mem_map] at hx
    obtain ⟨c, hc', rfl⟩ := hx
    have hn := frame_isNode (Or.inr (Or.inl hd)) (by omega) (fun h => by omega) (List.mem_range.1 hr') (List.mem_range.1 hc')
    obtain ⟨b, b', h1, h2, h3, h4, -⟩ := node_pixel hg h0 hmark hv (lt_of_le_of_lt m1 (lt_of_lt_of_le hz m2)) (fun n hn => m3 (φ n) (List.mem_map.2 ⟨n, List.mem_range.2 hn, rfl⟩)) hn
    exact ⟨_, _, b, b', h1, h2, h3, h4⟩
  have key : ∀ (L : List (Nat → Int)) (n : Nat) (buffer : List (Option Nat)),
      (∀ x ∈ L, ∃ c v b b', gridAt .serial g data x = .ok c ∧ value c = .ok v ∧ shade m v = .ok b ∧ mark c v b = .ok b') → n ≤ buffer.length → buffer.length < n + L.length →
      L.foldlM (paint g value mark data m) (n, buffer) = .abort 134 := by
    intro L
    induction L with
    | nil => intro n buffer _ h1 h2; simp at h2; omega
    | cons x L ih =>
      intro n buffer hL h1 h2
      obtain ⟨c, v, b, b', e1, e2, e3, e4⟩ := hL x (by simp)
      rw [List.foldlM_cons]
      by_cases hn : n < buffer.length
      · have e : paint g value mark data m (n, buffer) x = .ok (n + 1, buffer.set n (some b')) := by
          unfold paint
          rw [e1, Outcome.ok_bind, e2, Outcome.ok_bind, if_pos hn, e3, Outcome.ok_bind, e4, Outcome.ok_bind]
        rw [e, Outcome.bind_eq, Outcome.ok_bind]
        apply ih _ _ fun y hy => hL y (by simp [hy])
        · rw [List.length_set]; omega
        · rw [List.length_set]; rw [List.length_cons] at h2; omega
      · have e : paint g value mark data m (n, buffer) x = .abort 134 := by
          unfold paint
          rw [e1, Outcome.ok_bind, e2, Outcome.ok_bind, if_neg hn]
        rw [e]; rfl
  rw [key _ 0 _ hread (Nat.zero_le _) (by rw [List.length_replicate, hlen]; simp; omega)]
  rfl

/-! ## `--zoom` -/

omit [Field α] [IsStrictOrderedRing α] [FloorRing α] in
/-- **C42, negation.** `--zoom` without limits starts from an empty range (`zoomin` above all values, `zoomax` below), and the first node can only raise the upper end. If it is the
only one with the smallest value, the lower end comes out too high. -/
theorem zoom_misses_minimum {T : Type} {g : Shape} (h0 : g.ghosts = 0) {value : T → Outcome α} {data : Int → T} {φ : Int → α} (hv : Values g value data φ)
    (hn : 0 < g.nodes.toNat) (hmin : ∀ n : Nat, 0 < n → n < g.nodes.toNat → φ 0 < φ n) {zoomin zoomax : α} (hz0 : φ 0 < zoomin) (hz1 : zoomax < φ 0) :
    ∃ m, range g value data zoomin zoomax = .ok m ∧ φ 0 < m.1 := by
  refine ⟨_, range_eq h0 hv zoomin zoomax, ?_⟩
  obtain ⟨k, hk⟩ : ∃ k, g.nodes.toNat = k + 1 := ⟨g.nodes.toNat - 1, by omega⟩
  rw [hk, List.range_succ_eq_map, List.map_cons, List.foldl_cons]
  have e : widen (zoomin, zoomax) (φ ((0 : Nat) : Int)) = (zoomin, φ 0) := if_pos hz1
  rw [e]
  have key : ∀ (L : List α) (m : α × α), φ 0 < m.1 → (∀ v ∈ L, φ 0 < v) → φ 0 < (L.foldl widen m).1 := by
    intro L
    induction L with
    | nil => intro m h _; exact h
    | cons v L ih =>
      intro m h hL
      rw [List.foldl_cons]
      apply ih
      · unfold widen
        split_ifs
        · exact h
        · exact hL v (by simp)
        · exact h
      · intro u hu; exact hL u (by simp [hu])
  apply key _ _ hz0
  intro v hv'
  rw [List.mem_map] at hv'
  obtain ⟨n, hn', rfl⟩ := hv'
  rw [List.mem_map] at hn'
  obtain ⟨i, hi', rfl⟩ := hn'
  rw [List.mem_range] at hi'
  exact hmin (i + 1) (by omega) (by omega)

omit [IsStrictOrderedRing α] in
/-- **C42, negation.** A field with the same value at two or more nodes and `--zoom`: the range is empty and every shade is zero divided by zero. -/
theorem zoom_constant {T : Type} {g : Shape} (hg : g.Wf) (h0 : g.ghosts = 0) (hd : g.dim = 1 ∨ g.dim = 2 ∨ g.dim = 3) {axis : Nat} (ha : axis < 3) {level : Int}
    (hl : g.dim = 3 → g.x0 axis ≤ level ∧ level < g.x1 axis) {value : T → Outcome α} {mark : T → α → Nat → Outcome Nat} {data : Int → T} {a : α} (hv : Values g value data fun _ => a)
    (hn : 2 ≤ g.nodes.toNat) {zoomin zoomax : α} (hz0 : a < zoomin) (hz1 : zoomax < a) {buffer : List (Option Nat)} (hbuf : 0 < buffer.length) :
    fieldToPng g value value mark zoomin zoomax axis level data buffer = .ub := by
  have hr := range_eq h0 hv zoomin zoomax
  have hm : ((List.range g.nodes.toNat).map fun _ : Nat => a).foldl widen (zoomin, zoomax) = (a, a) := by
    obtain ⟨k, hk⟩ : ∃ k, g.nodes.toNat = k + 2 := ⟨g.nodes.toNat - 2, by omega⟩
    rw [hk, List.range_succ_eq_map, List.range_succ_eq_map]
    simp only [List.map_cons, List.map_map, Function.comp_def, List.foldl_cons]
    have e0 : widen (zoomin, zoomax) a = (zoomin, a) := if_pos hz1
    have e1 : widen (zoomin, a) a = (a, a) := by
      unfold widen
      rw [if_neg (lt_irrefl a), if_pos hz0]
    have e2 : widen (a, a) a = (a, a) := by
      unfold widen
      rw [if_neg (lt_irrefl a), if_neg (lt_irrefl a)]
    rw [e0, e1]
    generalize List.range k = L
    induction L with
    | nil => rfl
    | cons x L ih => rw [List.map_cons, List.foldl_cons, e2, ih]
  rw [hm] at hr
  have hvis : visited g axis level = (frame g axis level).nodes := by
    rw [visited_eq hd ha, if_neg]
    rintro ⟨h3, hc⟩
    exact hc (hl h3)
  have hpos : 0 < (frame g axis level).height ∧ 0 < (frame g axis level).width := by
    have hs := hg.side
    unfold frame
    dsimp only
    split_ifs with h1 h2 h3 h4
    · have := hs 0 (by omega); simp; omega
    · have := hs 0 (by omega); have := hs 1 (by omega); simp; omega
    all_goals
      have := hs 0 (by omega); have := hs 1 (by omega); have := hs 2 (by omega); simp; omega
  have hnode := frame_isNode hd ha hl hpos.1 hpos.2
  have hget := nodes_get (frame g axis level) hpos.1 hpos.2
  unfold fieldToPng
  rw [if_neg (by omega), hr, Outcome.ok_bind, hvis]
  cases hL : (frame g axis level).nodes with
  | nil => rw [hL] at hget; simp at hget
  | cons x L =>
    rw [hL] at hget
    simp at hget
    rw [← hget] at hnode
    have hc : g.IsCell x := fun j hj => by have := hnode j hj; omega
    have hb := Shape.rawOffset_bounds hg hc
    have hcn := Convert.cells_eq h0
    have hat : g.atVec .serial x = g.rawOffset x := Shape.atVec_eq_raw .serial fun j hj => checkBoundary_inside _ _ _ _ _ _ (hnode j hj)
    have hgr : gridAt .serial g data x = .ok (data (g.rawOffset x)) := by unfold gridAt deref; rw [hat]; exact if_pos hb
    obtain ⟨n, hn'⟩ : ∃ n : Nat, g.rawOffset x = n := ⟨(g.rawOffset x).toNat, by omega⟩
    have hval : value (data (g.rawOffset x)) = .ok a := by rw [hn']; exact hv n (by omega)
    have hp : paint g value mark data (a, a) (0, buffer) x = .ub := by
      unfold paint
      rw [hgr, Outcome.ok_bind, hval, Outcome.ok_bind, if_pos hbuf]
      unfold shade
      rw [if_pos (sub_self a)]
      rfl
    rw [List.foldlM_cons, hp]
    rfl

/-! ## Which value is drawn -/

omit [LinearOrder α] [IsStrictOrderedRing α] [FloorRing α] in
/-- **C42.** Sparse cells: range and picture agree unless `--exclude` names exactly one field. -/
theorem sparse_consistent (sqrt : α → α) {mode : Nat} {fieldset : List Int} (h : fieldset.length ≠ 1 ∨ mode = 2) (c : Sparse.Cell α) :
    sparseScale sqrt mode fieldset c = sparseValue sqrt mode fieldset c := by
  unfold sparseScale sparseValue
  rcases h with h | h
  · rw [if_pos h, if_pos (Or.inr h)]
  · subst h; simp

omit [LinearOrder α] [IsStrictOrderedRing α] [FloorRing α] in
/-- With exactly one excluded field the range is that of the squares, the picture that of the roots. -/
theorem sparse_exclude_one (sqrt : α → α) (i : Int) (c : Sparse.Cell α) :
    sparseScale sqrt 3 [i] c = .ok (sumSquares [i] c) ∧ sparseValue sqrt 3 [i] c = .ok (sqrt (sumSquares [i] c)) := ⟨rfl, rfl⟩

omit [LinearOrder α] [IsStrictOrderedRing α] [FloorRing α] in
theorem gather_squares (c : List α) {included : Int} (hi : 1 < included) {fields : List Int} (hf : ∀ i ∈ fields, 0 ≤ i ∧ i < c.length) (s : α) :
    fields.foldlM (fun sum i => (Convert.vecGet c i).bind fun v => .ok (if included > 1 then sum + v ^ 2 else v)) s =
      Outcome.ok (s + (fields.map fun i => c.getD i.toNat 0 ^ 2).sum) := by
  induction fields generalizing s with
  | nil => simp [Outcome.pure_eq]
  | cons i fields ih =>
    obtain ⟨h0, h1⟩ := hf i (by simp)
    have e : Convert.vecGet c i = .ok (c.getD i.toNat 0) := by
      unfold Convert.vecGet
      have : i.toNat < c.length := by omega
      simp [h0, h1, this]
    rw [List.foldlM_cons, e, Outcome.ok_bind, Outcome.bind_eq, Outcome.ok_bind, ih (fun k hk => hf k (by simp [hk])), if_pos hi]
    simp [add_assoc]

/-- The fields that `--mag` or nothing, `--field`, `--exclude` select. -/
def selected (mode fields : Nat) (fieldset : List Int) : List Int :=
  if mode = 2 then fieldset else if mode = 3 then (allFields fields).filter fun i => i ∉ fieldset else allFields fields

omit [LinearOrder α] [IsStrictOrderedRing α] [FloorRing α] in
theorem mem_allFields {n : Nat} {i : Int} : i ∈ allFields n ↔ 0 ≤ i ∧ i < n := by
  unfold allFields
  rw [List.mem_map]
  constructor
  · rintro ⟨k, hk, rfl⟩; rw [List.mem_range] at hk; omega
  · rintro ⟨h0, h1⟩; exact ⟨i.toNat, List.mem_range.2 (by omega), by omega⟩

omit [Field α] [LinearOrder α] [IsStrictOrderedRing α] [FloorRing α] in
/-- `included` counts the selected fields if the fields named exist and are named once. -/
theorem included_eq {mode fields : Nat} {fieldset : List Int} (hn : fieldset.Nodup) (hs : ∀ i ∈ fieldset, 0 ≤ i ∧ i < fields) (h0 : mode ≠ 2 → mode ≠ 3 → fieldset = []) :
    vectorIncluded mode fields fieldset = (selected mode fields fieldset).length := by
  unfold vectorIncluded selected
  by_cases h2 : mode = 2
  · simp [h2]
  · rw [if_neg h2, if_neg h2]
    by_cases h3 : mode = 3
    · rw [if_pos h3]
      have hnd : (allFields fields).Nodup := List.Nodup.map (fun a b h => by simpa using h) List.nodup_range
      have hlen : (allFields fields).length = fields := by simp [allFields]
      have hperm : ((allFields fields).filter fun i => i ∈ fieldset).Perm fieldset := by
        rw [List.perm_ext_iff_of_nodup (hnd.filter _) hn]
        intro i
        rw [List.mem_filter, mem_allFields]
        constructor
        · rintro ⟨-, h⟩; exact of_decide_eq_true h
        · intro h; exact ⟨hs i h, decide_eq_true h⟩
      have hsplit := List.length_eq_length_filter_add (l := allFields fields) (fun i => decide (i ∈ fieldset))
      rw [hperm.length_eq, hlen] at hsplit
      have e : ((allFields fields).filter fun i => !decide (i ∈ fieldset)) = (allFields fields).filter fun i => decide (i ∉ fieldset) := by
        congr 1; funext i; simp
      rw [e] at hsplit
      omega
    · rw [if_neg h3, h0 h2 h3]; simp [allFields]

omit [LinearOrder α] [IsStrictOrderedRing α] [FloorRing α] in
/-- **C42.** Vectors: the value is the magnitude over the selected fields if there are several, the selected field itself if there is one and the magnitude was not asked for. -/
theorem vectorValue_spec (sqrt : α → α) {mode fields : Nat} {fieldset : List Int} (hm : mode ≤ 3) (hn : fieldset.Nodup) (hs : ∀ i ∈ fieldset, 0 ≤ i ∧ i < fields)
    (h0 : mode ≠ 2 → mode ≠ 3 → fieldset = []) {c : List α} (hc : c.length = fields) (hsel : selected mode fields fieldset ≠ []) :
    (mode = 1 ∨ 1 < (selected mode fields fieldset).length →
      vectorValue sqrt mode fields fieldset c = .ok (sqrt ((selected mode fields fieldset).map fun i => c.getD i.toNat 0 ^ 2).sum)) ∧
    (mode ≠ 1 → ∀ i, selected mode fields fieldset = [i] → vectorValue sqrt mode fields fieldset c = .ok (c.getD i.toNat 0)) := by
  have hin : ∀ i ∈ selected mode fields fieldset, 0 ≤ i ∧ i < c.length := by
    intro i hi
    rw [hc]
    unfold selected at hi
    split_ifs at hi
    · exact hs i hi
    · exact mem_allFields.1 (List.mem_filter.1 hi).1
    · exact mem_allFields.1 hi
  have hinc := included_eq hn hs h0
  have hbody : ∀ k, (if mode = 0 then gather k c (allFields fields)
      else if mode = 1 then gather k c (allFields fields)
      else if mode = 2 then (if fieldset = [] then .ub else gather k c fieldset)
      else if mode = 3 then gather k c ((allFields fields).filter fun i => i ∉ fieldset)
      else .ok 0) = gather k c (selected mode fields fieldset) := by
    intro k
    unfold selected at hsel ⊢
    have : mode = 0 ∨ mode = 1 ∨ mode = 2 ∨ mode = 3 := by omega
    rcases this with rfl | rfl | rfl | rfl
    · rfl
    · rfl
    · have : fieldset ≠ [] := hsel
      simp [this]
    · rfl
  have hval : vectorValue sqrt mode fields fieldset c =
      (gather (if mode = 1 then 2 else vectorIncluded mode fields fieldset) c (selected mode fields fieldset)).bind fun sum =>
        .ok (if mode = 1 ∨ vectorIncluded mode fields fieldset ≠ 1 then sqrt sum else sum) := by
    unfold vectorValue
    dsimp only
    congr 1
    rw [← hbody]
    by_cases h1 : mode = 1
    · subst h1; rfl
    · rw [if_neg h1, if_neg h1, if_neg h1]
  constructor
  · intro h
    rw [hval]
    unfold gather
    rw [gather_squares c (by split_ifs <;> omega) hin, Outcome.ok_bind, zero_add, if_pos (by omega)]
  · intro h1 i hi
    rw [hval, hinc, hi, if_neg h1]
    obtain ⟨i0, i1⟩ := hin i (by rw [hi]; simp)
    have hlt : i.toNat < c.length := by omega
    have e : Convert.vecGet c i = .ok (c.getD i.toNat 0) := by
      unfold Convert.vecGet
      simp [i0, i1, hlt]
    simp [gather, e, Outcome.ok_bind, Outcome.bind_eq, Outcome.pure_eq, h1]

omit [IsStrictOrderedRing α] [FloorRing α] in
/-- **C42.** What a contour does: nodes near a level are drawn black, or white with `--coninv`, the others are left. -/
theorem contour_spec (coninv : Bool) (levels : List α) (tol f : α) (b : Nat) :
    (∀ level ∈ levels, level ≠ 0 → tol ≤ |f - level| / |level|) → contour coninv levels tol (.ok f) b = .ok b := by
  intro h
  unfold contour
  induction levels with
  | nil => rfl
  | cons l ls ih =>
    have hl : ¬ onContour tol f l := fun q => absurd q.2 (not_lt.mpr (h l (by simp) q.1))
    rw [List.foldlM_cons]
    simp only [Outcome.ok_bind, Outcome.bind_eq, if_neg hl]
    exact ih fun level hm => h level (by simp [hm])

/-- **C42.** The other case. -/
theorem contour_drawn (coninv : Bool) {levels : List α} {tol f level : α} (hm : level ∈ levels) (h0 : level ≠ 0) (h1 : |f - level| / |level| < tol) (b : Nat) :
    contour coninv levels tol (.ok f) b = .ok (if coninv then 255 else 0) := by
  unfold contour
  induction levels generalizing b with
  | nil => simp at hm
  | cons l ls ih =>
    have keep : ∀ (ls : List α), ls.foldlM (fun b level => (Outcome.ok f).bind fun f => .ok (if onContour tol f level then (if coninv then 255 else 0) else b)) (if coninv then 255 else 0) =
        Outcome.ok (if coninv then 255 else 0) := by
      intro ls
      induction ls with
      | nil => rfl
      | cons l ls ih =>
        rw [List.foldlM_cons]
        simp only [Outcome.bind_eq, Outcome.ok_bind, ite_self] at ih ⊢
        exact ih
    rw [List.foldlM_cons]
    rcases List.mem_cons.mp hm with e | e
    · subst e
      have hon : onContour tol f level := ⟨h0, h1⟩
      have := keep ls
      simp only [Outcome.ok_bind, Outcome.bind_eq, if_pos hon] at this ⊢
      exact this
    · have := fun b => ih e b
      simp only [Outcome.ok_bind, Outcome.bind_eq] at this ⊢
      exact this _

/-- **C42, negation.** `--contour` does nothing on a scalar field in one or two dimensions. -/
theorem contours_ignored {dim mode : Nat} (hd : dim < 3) (hm : mode < 4) (coninv : Bool) (levels : List α) (tol v : α) (b : Nat) : scalarContour dim mode coninv levels tol v b = .ok b := by
  unfold scalarContour
  rw [if_neg (by omega), if_neg (by omega)]

omit [IsStrictOrderedRing α] [FloorRing α] in
/-- **C42, negation.** The contour at level 0 is never drawn, not even through nodes where the value is 0. -/
theorem contour_zero_ignored (coninv : Bool) (tol v : α) (b : Nat) : contour coninv [0] tol (.ok v) b = .ok b := by
  simp [contour, onContour, Outcome.ok_bind, Outcome.bind_eq, Outcome.pure_eq]

end

/-! ## Witnesses -/

/-- A row of `n` nodes. -/
def row (n : Int) : Shape := { dim := 1, x0 := fun _ => 0, x1 := fun _ => n, b0 := fun _ => .neumann, b1 := fun _ => .neumann, ghosts := 0 }

theorem row_wf {n : Int} (h : 0 < n) : (row n).Wf := ⟨Nat.one_pos, fun _ _ => h, le_refl 0⟩

/-- No contours. -/
def plain {T : Type} : T → ℚ → Nat → Outcome Nat := fun _ _ b => .ok b

theorem plain_marks {T : Type} : Marks (plain (T := T)) := fun _ _ b hb => ⟨b, rfl, hb⟩

/-- 0, 5, 3. -/
def peak (p : Int) : ℚ := if p = 0 then 0 else if p = 1 then 5 else 3

/-- **C42, negation.** Three nodes with the values 0, 5, 3 and `--zoom`, whatever limits stand for "everything": the range found is 3 to 5, and the shade of 0 is a negative number
converted to `unsigned char`. -/
theorem zoom_undefined {big : ℚ} (h : 5 < big) : run (row 3) (scalarValue 0) (scalarValue 0) plain big (-big) peak (-1) (-1) false = .ub := by
  have hv : Values (row 3) (scalarValue 0) peak peak := fun n _ => rfl
  have hn : (row 3).nodes.toNat = 3 := by decide
  have hr : range (row 3) (scalarValue 0) peak big (-big) = .ok (3, 5) := by
    rw [range_eq rfl hv, hn]
    have e0 : widen (big, -big) (0 : ℚ) = (big, 0) := if_pos (by show (0 : ℚ) > -big; linarith)
    have e1 : widen (big, (0 : ℚ)) 5 = (big, 5) := if_pos (by norm_num)
    have e2 : widen (big, (5 : ℚ)) 3 = (3, 5) := by
      unfold widen
      rw [if_neg (by norm_num), if_pos (by show (3 : ℚ) < big; linarith)]
    have hl : (List.range 3).map (fun n : Nat => peak n) = [0, 5, 3] := by decide +kernel
    rw [hl, List.foldl_cons, e0, List.foldl_cons, e1, List.foldl_cons, e2]
    rfl
  have key : ((visited (row 3) 0 (-1)).foldlM (paint (row 3) (scalarValue 0) plain peak (3, 5)) (0, List.replicate 3 none)).bind (fun s => Outcome.ok s.2) = .ub := by decide +kernel
  unfold run mmsp2png
  have hcs : chooseSlice (row 3).dim (row 3).x0 (row 3).x1 (-1) (-1) = (-1, -1) := by decide
  have hsz : imageSize (row 3).dim (row 3).x0 (row 3).x1 (-1) = .ok (3, 1) := by decide
  rw [hcs]
  dsimp only
  rw [hsz, Outcome.ok_bind]
  dsimp only
  unfold fieldToPng
  rw [if_neg (by decide), hr, Outcome.ok_bind]
  exact congrArg (fun o => Outcome.bind o _) key

/-- One half in field 1; nothing. -/
def speckled (p : Int) : Sparse.Cell ℚ := if p = 0 then [(1, 1 / 2)] else []

/-- **C42, negation.** `--exclude=0 --zoom` on two sparse cells, one with one half in field 1 and one empty: the range goes up to one quarter, the shade of one half would be 510. -/
theorem exclude_one_undefined {sqrt : ℚ → ℚ} (h4 : sqrt (1 / 4) = 1 / 2) {big : ℚ} (h : 1 < big) :
    run (row 2) (sparseScale sqrt 3 [0]) (sparseValue sqrt 3 [0]) plain big (-big) speckled (-1) (-1) false = .ub := by
  have hv : Values (row 2) (sparseScale sqrt 3 [0]) speckled (fun p => sumSquares [0] (speckled p)) := fun n _ => rfl
  have hn : (row 2).nodes.toNat = 2 := by decide
  have hr : range (row 2) (sparseScale sqrt 3 [0]) speckled big (-big) = .ok (0, 1 / 4) := by
    rw [range_eq rfl hv, hn]
    have e0 : widen (big, -big) (1 / 4 : ℚ) = (big, 1 / 4) := if_pos (by show (1 / 4 : ℚ) > -big; linarith)
    have e1 : widen (big, (1 / 4 : ℚ)) 0 = (0, 1 / 4) := by
      unfold widen
      rw [if_neg (by norm_num), if_pos (by show (0 : ℚ) < big; linarith)]
    have hl : (List.range 2).map (fun n : Nat => sumSquares [0] (speckled n)) = [1 / 4, 0] := by decide +kernel
    rw [hl, List.foldl_cons, e0, List.foldl_cons, e1]
    rfl
  have hvis : visited (row 2) 0 (-1) = [point 0 0 0, point 1 0 0] := rfl
  have hat : gridAt .serial (row 2) speckled (point 0 0 0) = .ok [(1, 1 / 2)] := by decide +kernel
  have hsum : sumSquares [0] [((1 : Int), (1 / 2 : ℚ))] = 1 / 4 := by decide +kernel
  have hval : sparseValue sqrt 3 [0] [(1, 1 / 2)] = .ok (1 / 2 : ℚ) := by
    rw [(sparse_exclude_one sqrt 0 _).2, hsum, h4]
  have hsh : shade ((0 : ℚ), 1 / 4) (1 / 2) = .ub := by decide +kernel
  have hcs : chooseSlice (row 2).dim (row 2).x0 (row 2).x1 (-1) (-1) = (-1, -1) := by decide
  have hsz : imageSize (row 2).dim (row 2).x0 (row 2).x1 (-1) = .ok (2, 1) := by decide
  unfold run mmsp2png
  rw [hcs]
  dsimp only
  rw [hsz, Outcome.ok_bind]
  dsimp only
  unfold fieldToPng
  rw [if_neg (by decide), hr, Outcome.ok_bind]
  show Outcome.bind (Outcome.bind ((visited (row 2) 0 (-1)).foldlM _ (0, List.replicate 2 none)) _) _ = _
  rw [hvis, List.foldlM_cons]
  have hp : paint (row 2) (sparseValue sqrt 3 [0]) plain speckled (0, 1 / 4) (0, List.replicate 2 none) (point 0 0 0) = .ub := by
    unfold paint
    rw [hat, Outcome.ok_bind, hval, Outcome.ok_bind, if_pos (by decide), hsh]
    rfl
  rw [hp]
  rfl

/-! ## Examples -/

/-- A plane of 3 by 2 nodes and its values. -/
def slab : Shape := { dim := 2, x0 := fun _ => 0, x1 := fun j => if j = 0 then 3 else 2, b0 := fun _ => .neumann, b1 := fun _ => .neumann, ghosts := 0 }

theorem slab_wf : slab.Wf := by
  refine ⟨by decide, fun j hj => ?_, by decide⟩
  have hj' : j < 2 := hj
  have : j = 0 ∨ j = 1 := by omega
  rcases this with rfl | rfl <;> decide

example : run slab (scalarValue 0) (scalarValue 0) plain 0 1 (fun p => (p : ℚ)) (-1) (-1) false = .ok ((3, 2), [some 51, some 153, some 255, some 0, some 102, some 204]) := by decide +kernel
example : run slab (scalarValue 0) (scalarValue 0) plain 0 1 (fun p => (p : ℚ)) (-1) (-1) true = .ok ((3, 2), [some 204, some 102, some 0, some 255, some 153, some 51]) := by decide +kernel

/-- The hypotheses of the main theorem hold for it. -/
example : ∃ image lo hi, run slab (scalarValue 0) (scalarValue 0) plain 0 1 (fun p => (p : ℚ)) (-1) (-1) false = .ok ((3, 2), image) ∧
    Shows slab (frame slab 0 (-1)) (fun p => (p : ℚ)) plain (fun p => (p : ℚ)) lo hi image := by
  obtain ⟨image, lo, hi, e, -, -, -, -, -, -, h⟩ := mmsp2png_partial (g := slab) (axis := -1) (level := -1) slab_wf rfl (Or.inr (Or.inl rfl)) (fun _ => rfl) (fun h => absurd h (by decide))
    (plain_marks (T := ℚ)) (value := scalarValue 0) (data := fun p => (p : ℚ)) (φ := fun p => (p : ℚ)) (fun n _ => rfl) (zoomin := 0) (zoomax := 1) (by norm_num)
  exact ⟨image, lo, hi, e, h⟩

/-- A second row does not fit. -/
example : run slab (scalarValue 0) (scalarValue 0) plain 0 1 (fun p => (p : ℚ)) 1 0 false = .abort 134 :=
  slice_plane_aborts slab_wf rfl rfl (by decide) (by decide) plain_marks (φ := fun p => (p : ℚ)) (fun n _ => rfl) (by norm_num) 0

/-- A flat plane with `--zoom`. -/
example : fieldToPng slab (scalarValue 0) (scalarValue 0) plain 100 (-100) 0 (-1) (fun _ => (7 : ℚ)) (List.replicate 6 none) = .ub :=
  zoom_constant slab_wf rfl (Or.inr (Or.inl rfl)) (by decide) (fun h => absurd h (by decide)) (fun _ _ => rfl) (by decide) (by norm_num) (by norm_num) (by decide)

/-- The minimum at the first node is missed. -/
example : ∃ m, range (row 3) (scalarValue 0) peak 100 (-100) = .ok m ∧ peak 0 < m.1 :=
  zoom_misses_minimum rfl (fun _ _ => rfl) (by decide) (fun n h1 h2 => by
    have h3 : n < 3 := h2
    have : n = 1 ∨ n = 2 := by omega
    rcases this with rfl | rfl <;> decide +kernel) (by decide +kernel) (by decide +kernel)

/-- A block of 2 by 3 by 2 nodes, starting at `z`. -/
def block (z : Int) : Shape := { dim := 3, x0 := fun j => if j = 2 then z else 0, x1 := fun j => if j = 0 then 2 else if j = 1 then 3 else z + 2, b0 := fun _ => .neumann, b1 := fun _ => .neumann, ghosts := 0 }

example : run (block 0) (scalarValue 0) (scalarValue 0) plain 0 1 (fun p => (p : ℚ)) 0 1 false = .ok ((3, 2), [some 231, some 185, some 139, some 255, some 208, some 162]) := by decide +kernel
example : run (block 0) (scalarValue 0) (scalarValue 0) plain 0 1 (fun p => (p : ℚ)) 0 (-1) false = .ok ((3, 2), List.replicate 6 none) := by decide +kernel
example : run (block 5) (scalarValue 0) (scalarValue 0) plain 0 1 (fun p => (p : ℚ)) (-1) (-1) false = .ok ((2, 3), List.replicate 6 none) := by decide +kernel

/-- Fields 0 and 2 of three; field 1 of three. -/
example : vectorValue (fun x : ℚ => x) 3 3 [1] [3, 5, 4] = .ok 25 := by decide +kernel
example : vectorValue (fun x : ℚ => x) 2 3 [1] [3, 5, 4] = .ok 5 := by decide +kernel

/-- Two fields, `--exclude=5,6`: neither the magnitude nor a field. -/
example : vectorValue (fun x : ℚ => x) 3 2 [5, 6] [3, 4] = .ok 4 := by decide +kernel

end MMSP.Image
