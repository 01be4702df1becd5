import Verif.SparsePF
import Verif.SparseProps
import Verif.StencilField
import Verif.ParallelRunProps
import Mathlib.Tactic.Linarith
import Mathlib.Tactic.FieldSimp
import Mathlib.Algebra.BigOperators.Field
import Mathlib.Algebra.Order.BigOperators.Ring.Finset
import Mathlib.Algebra.Order.Ring.Rat
import Mathlib.Data.Rat.Defs
/-!
# Properties C41, C44, C51: sparse phase fields
-/

namespace MMSP.SparsePF

open Finset
open Sparse (keys Ok)
open Stencil (gridAt bump view InReach gridAt_ok)

variable {α : Type}

/-! ## Neighbourhood -/

theorem mark_spec (c : Sparse.Cell α) (s : Sparse.Cell Int) (hs : Ok s) :
    Ok (c.foldl (fun s e => Sparse.update s e.1 fun _ => 1) s) ∧
      ∀ k, k ∈ keys (c.foldl (fun s e => Sparse.update s e.1 fun _ => (1 : Int)) s) ↔ k ∈ keys s ∨ k ∈ keys c := by
  induction c generalizing s with
  | nil => exact ⟨hs, fun k => by simp [keys]⟩
  | cons e c ih =>
    obtain ⟨a, b⟩ := ih (Sparse.update s e.1 fun _ => 1) (hs.update _ _)
    refine ⟨a, fun k => ?_⟩
    rw [List.foldl_cons, b, Sparse.keys_update]
    have : k ∈ keys (e :: c) ↔ k = e.1 ∨ k ∈ keys c := by simp [keys]
    rw [this]
    split_ifs with h
    · constructor
      · rintro (h' | h')
        · exact .inl h'
        · exact .inr (.inr h')
      · rintro (h' | rfl | h')
        · exact .inl h'
        · exact .inl h
        · exact .inr h'
    · rw [List.mem_append, List.mem_singleton, or_assoc]

theorem bump_zero (x : Nat → Int) (j : Nat) : bump x j 0 = x := by
  unfold bump; rw [add_zero, Function.update_eq_self]

/-- **C44.** The neighbourhood lists, once each, the fields listed at the node and at its nearest neighbours. -/
theorem nearby_spec {bd : Build} {g : Shape} {x : Nat → Int} (hd : 0 < g.dim) (hr : InReach bd g x) (data : Int → Sparse.Cell α) :
    ∃ s, nearby bd g data x = .ok s ∧ Ok s ∧ ∀ k, k ∈ keys s ↔ k ∈ keys (view bd g data x) ∨
      ∃ j < g.dim, k ∈ keys (view bd g data (bump x j 1)) ∨ k ∈ keys (view bd g data (bump x j (-1))) := by
  have key : ∀ n ≤ g.dim, ∃ s : Sparse.Cell Int, (List.range n).foldlM (fun s (j : Nat) => [-1, 0, 1].foldlM (fun s (k : Int) => (gridAt bd g data (bump x j k)).bind fun c =>
      .ok (c.foldl (fun s e => Sparse.update s e.1 fun _ => 1) s)) s) [] = Outcome.ok s ∧ Ok s ∧ ∀ k, k ∈ keys s ↔
        ∃ j < n, k ∈ keys (view bd g data x) ∨ k ∈ keys (view bd g data (bump x j 1)) ∨ k ∈ keys (view bd g data (bump x j (-1))) := by
    intro n
    induction n with
    | zero => exact fun _ => ⟨[], rfl, by simp [Ok, keys], fun k => by simp [keys]⟩
    | succ n ih =>
      intro hn
      obtain ⟨s, h1, h2, h3⟩ := ih (by omega)
      obtain ⟨t1, t2⟩ := hr.2 n (by omega)
      rw [List.range_succ, List.foldlM_append, h1]
      simp only [Outcome.bind_eq, Outcome.ok_bind, List.foldlM_cons, List.foldlM_nil, Outcome.pure_eq, gridAt_ok t1, gridAt_ok t2, bump_zero, gridAt_ok hr.1]
      obtain ⟨a1, a2⟩ := mark_spec (view bd g data (bump x n (-1))) s h2
      obtain ⟨b1, b2⟩ := mark_spec (view bd g data x) _ a1
      obtain ⟨c1, c2⟩ := mark_spec (view bd g data (bump x n 1)) _ b1
      refine ⟨_, rfl, c1, fun k => ?_⟩
      rw [c2, b2, a2, h3]
      constructor
      · rintro (((⟨j, hj, h⟩ | h) | h) | h)
        · exact ⟨j, by omega, h⟩
        · exact ⟨n, by omega, .inr (.inr h)⟩
        · exact ⟨n, by omega, .inl h⟩
        · exact ⟨n, by omega, .inr (.inl h)⟩
      · rintro ⟨j, hj, h⟩
        by_cases hjn : j = n
        · subst hjn
          rcases h with h | h | h
          · exact .inl (.inr h)
          · exact .inr h
          · exact .inl (.inl (.inr h))
        · exact .inl (.inl (.inl ⟨j, by omega, h⟩))
  obtain ⟨s, h1, h2, h3⟩ := key g.dim le_rfl
  refine ⟨s, h1, h2, fun k => ?_⟩
  rw [h3]
  constructor
  · rintro ⟨j, hj, h | h | h⟩
    · exact .inl h
    · exact .inr ⟨j, hj, .inl h⟩
    · exact .inr ⟨j, hj, .inr h⟩
  · rintro (h | ⟨j, hj, h⟩)
    · exact ⟨0, hd, .inl h⟩
    · exact ⟨j, hj, .inr h⟩

/-! ## Assignments above a threshold -/

section
variable [Zero α]

theorem fold_assign (P : Int → Prop) [DecidablePred P] (v : Int → α) (l : List Int) (z : Sparse.Cell α) (hz : Ok z) :
    Ok (l.foldl (fun z i => if P i then Sparse.update z i fun _ => v i else z) z) ∧
    (∀ k, Sparse.get (l.foldl (fun z i => if P i then Sparse.update z i fun _ => v i else z) z) k = if k ∈ l ∧ P k then v k else Sparse.get z k) ∧
    ∀ k, k ∈ keys (l.foldl (fun z i => if P i then Sparse.update z i fun _ => v i else z) z) ↔ k ∈ keys z ∨ (k ∈ l ∧ P k) := by
  induction l generalizing z with
  | nil => exact ⟨hz, by simp, by simp⟩
  | cons i l ih =>
    simp only [List.foldl_cons]
    by_cases hp : P i
    · rw [if_pos hp]
      obtain ⟨a, b, c⟩ := ih _ (hz.update i fun _ => v i)
      refine ⟨a, fun k => ?_, fun k => ?_⟩
      · rw [b, Sparse.get_update]
        by_cases hk : k = i
        · subst hk
          by_cases hm : k ∈ l <;> simp [hm, hp]
        · simp [hk]
      · rw [c, Sparse.keys_update]
        by_cases hk : k = i
        · subst hk
          constructor
          · intro _; exact .inr ⟨by simp, hp⟩
          · intro _; left; split_ifs with h
            · exact h
            · simp
        · have : k ∈ (if i ∈ keys z then keys z else keys z ++ [i]) ↔ k ∈ keys z := by
            split_ifs
            · rfl
            · simp [hk]
          rw [this]; simp [hk]
    · rw [if_neg hp]
      obtain ⟨a, b, c⟩ := ih z hz
      refine ⟨a, fun k => ?_, fun k => ?_⟩
      · rw [b]
        by_cases hk : k = i
        · subst hk; simp [hp]
        · simp [hk]
      · rw [c]
        by_cases hk : k = i
        · subst hk; simp [hp]
        · simp [hk]

end

/-! ## Isotropic update -/

section
variable [Field α] [LinearOrder α]

theorem foldl_fst {β : Type} (s : Sparse.Cell Int) (f : β → Int → β) (b : β) : s.foldl (fun b e => f b e.1) b = (keys s).foldl f b := by
  rw [keys, List.foldl_map]

/-- **C44.** What one pass leaves in the new cell: fields whose value exceeds the threshold get that value, every other entry keeps what the cell held before. -/
theorem isoNode_spec (dt : α) {s : Sparse.Cell Int} {lap y z : Sparse.Cell α} (hz : Ok z) (hs : 2 ≤ s.length) :
    Ok (isoNode dt s lap y z) ∧
    (∀ k, Sparse.get (isoNode dt s lap y z) k = if k ∈ keys s ∧ isoValue dt lap y k > tiny then isoValue dt lap y k else Sparse.get z k) ∧
    ∀ k, k ∈ keys (isoNode dt s lap y z) ↔ k ∈ keys z ∨ (k ∈ keys s ∧ isoValue dt lap y k > tiny) := by
  unfold isoNode
  rw [if_neg (by omega), foldl_fst s (fun z i => if isoValue dt lap y i > tiny then Sparse.update z i fun _ => isoValue dt lap y i else z) z]
  exact fold_assign (fun k => isoValue dt lap y k > tiny) (isoValue dt lap y) (keys s) z hz

/-- **C44.** Into an empty cell: exactly the fields above the threshold, with their new values. -/
theorem isoNode_fresh_partial (dt : α) {s : Sparse.Cell Int} {lap y : Sparse.Cell α} (hs : 2 ≤ s.length) :
    Ok (isoNode dt s lap y []) ∧ (∀ k, k ∈ keys (isoNode dt s lap y []) ↔ k ∈ keys s ∧ isoValue dt lap y k > tiny) ∧
      ∀ k ∈ keys (isoNode dt s lap y []), Sparse.get (isoNode dt s lap y []) k = isoValue dt lap y k := by
  obtain ⟨a, b, c⟩ := isoNode_spec dt (s := s) (lap := lap) (y := y) (z := []) (by simp [Ok, keys]) hs
  have c' : ∀ k, k ∈ keys (isoNode dt s lap y []) ↔ k ∈ keys s ∧ isoValue dt lap y k > tiny := fun k => by rw [c]; simp [keys]
  exact ⟨a, c', fun k hk => by rw [b, if_pos ((c' k).1 hk)]⟩

/-- One field or none near the node: the node keeps its cell. -/
theorem isoNode_bulk (dt : α) {s : Sparse.Cell Int} (lap y z : Sparse.Cell α) (hs : s.length < 2) : isoNode dt s lap y z = y := if_pos hs

omit [LinearOrder α] in
theorem foldl_squares (y : Sparse.Cell α) (a : α) : y.foldl (fun sum e => sum + e.2 * e.2) a = a + (y.map fun e => e.2 * e.2).sum := by
  induction y generalizing a with
  | nil => simp
  | cons e y ih => rw [List.foldl_cons, ih, List.map_cons, List.sum_cons]; ring

/-- The value stored for field `i`: an explicit Euler step of `φᵢ' = φᵢ + φᵢ³ - 2 φᵢ Σφ² + 2 Δφᵢ`. -/
theorem isoValue_eq (dt : α) (lap y : Sparse.Cell α) (i : Int) :
    isoValue dt lap y i = Sparse.get y i + dt * (Sparse.get y i + Sparse.get y i ^ 3 - 2 * Sparse.get y i * (y.map fun e => e.2 * e.2).sum + 2 * Sparse.get lap i) := by
  unfold isoValue squares
  rw [foldl_squares]; ring

/-! ### Pinning particles (C51) -/

/-- **C51.** Every node but number 0 is updated as if there were no particles. -/
theorem zener_elsewhere (dt : α) {n : Nat} (hn : n ≠ 0) (s : Sparse.Cell Int) (lap y z : Sparse.Cell α) : zenerNode dt n s lap y z = isoNode dt s lap y z := by
  unfold zenerNode isoNode
  simp only [if_neg hn]

/-- **C51.** At node 0 all fields near it are frozen, whatever they are. -/
theorem zener_origin (dt : α) {s : Sparse.Cell Int} {lap y z : Sparse.Cell α} (hz : Ok z) (hs : 2 ≤ s.length) {k : Int} (hk : k ∈ keys s) :
    Sparse.get (zenerNode dt 0 s lap y z) k = Sparse.get y k := by
  unfold zenerNode
  rw [if_neg (by omega)]
  simp only [if_true]
  have := (fold_assign (fun _ => True) (Sparse.get y) (keys s) z hz).2.1 k
  simp only [if_true, and_true] at this
  rw [foldl_fst s (fun z i => Sparse.update z i fun _ => Sparse.get y i) z, this, if_pos hk]

end

/-! ## Pairwise interaction -/

section
variable [Field α]

/-- `f` adds `a h j` to entry `h` and `a j h` to entry `j`. -/
def Adds (f : Sparse.Cell α → Int → Int → Sparse.Cell α) (a : Int → Int → α) : Prop :=
  ∀ b h j, f b h j = Sparse.update (Sparse.update b h fun v => v + a h j) j fun v => v + a j h

theorem inner_sum {f : Sparse.Cell α → Int → Int → Sparse.Cell α} {a : Int → Int → α} (hf : Adds f a) {h : Int} {t : List Int} (ht : t.Nodup) (hh : h ∉ t) (b : Sparse.Cell α) (k : Int) :
    Sparse.get (t.foldl (fun b j => f b h j) b) k = Sparse.get b k + if k = h then ∑ j ∈ t.toFinset, a h j else if k ∈ t then a k h else 0 := by
  induction t generalizing b with
  | nil => simp
  | cons j t ih =>
    have hn := List.nodup_cons.1 ht
    have hj : h ≠ j := fun e => hh (by simp [e])
    rw [List.foldl_cons, ih hn.2 (fun h' => hh (by simp [h'])), hf]
    simp only [Sparse.get_update]
    by_cases h1 : k = h
    · subst h1
      simp only [if_neg hj, if_true]
      rw [List.toFinset_cons, sum_insert (by simpa using hn.1)]; ring
    · by_cases h2 : k = j
      · subst h2
        simp only [if_neg h1, if_true, if_neg hn.1, List.mem_cons, true_or]; ring
      · simp only [if_neg h1, if_neg h2, List.mem_cons, h2, false_or, if_false]

/-- The double loop adds to entry `k` the contributions of all other fields. -/
theorem pairs_sum {f : Sparse.Cell α → Int → Int → Sparse.Cell α} {a : Int → Int → α} (hf : Adds f a) {l : List Int} (hl : l.Nodup) (b : Sparse.Cell α) (k : Int) :
    Sparse.get (pairs f l b) k = Sparse.get b k + if k ∈ l then ∑ j ∈ l.toFinset.erase k, a k j else 0 := by
  induction l generalizing b with
  | nil => simp [pairs]
  | cons h t ih =>
    have hn := List.nodup_cons.1 hl
    rw [pairs, ih hn.2, inner_sum hf hn.2 hn.1]
    by_cases h1 : k = h
    · subst h1
      rw [if_pos rfl, if_neg hn.1, if_pos (by simp), List.toFinset_cons, erase_insert (by simpa using hn.1)]; ring
    · rw [if_neg h1]
      by_cases h2 : k ∈ t
      · rw [if_pos h2, if_pos h2, if_pos (by simp [h2]), List.toFinset_cons, erase_insert_of_ne (Ne.symm h1), sum_insert (by simp [hn.1])]; ring
      · rw [if_neg h2, if_neg h2, if_neg (by simp [h1, h2])]; ring

theorem force2_adds {e w : Int → Int → α} (he : ∀ h j, e h j = e j h) (hw : ∀ h j, w h j = w j h) (lap y : Sparse.Cell α) :
    Adds (force2 e w lap y) fun h j => e h j * Sparse.get lap j + w h j * Sparse.get y j := by
  intro b h j
  unfold force2
  dsimp only
  rw [he j h, hw j h]

theorem rate2_adds {mu : Int → Int → α} (hm : ∀ h j, mu h j = mu j h) (dF : Sparse.Cell α) :
    Adds (rate2 mu dF) fun h j => -(mu h j * (Sparse.get dF h - Sparse.get dF j)) := by
  intro b h j
  unfold rate2
  dsimp only
  rw [hm j h]
  simp only [sub_eq_add_neg]

/-- **C41.** The variational derivative of field `k`: the contributions of all other fields near the node. -/
theorem forces2_spec {e w : Int → Int → α} (he : ∀ h j, e h j = e j h) (hw : ∀ h j, w h j = w j h) (lap y : Sparse.Cell α) {l : List Int} (hl : l.Nodup) {k : Int} (hk : k ∈ l) :
    Sparse.get (forces2 e w lap y l) k = ∑ j ∈ l.toFinset.erase k, (e k j * Sparse.get lap j + w k j * Sparse.get y j) := by
  unfold forces2
  rw [pairs_sum (force2_adds he hw lap y) hl, Sparse.get_nil, zero_add, if_pos hk]

/-- **C41.** The rate of field `k`. -/
theorem rates_spec {mu : Int → Int → α} (hm : ∀ h j, mu h j = mu j h) (dF : Sparse.Cell α) {l : List Int} (hl : l.Nodup) {k : Int} (hk : k ∈ l) :
    Sparse.get (rates mu dF l) k = ∑ j ∈ l.toFinset.erase k, mu k j * (Sparse.get dF j - Sparse.get dF k) := by
  unfold rates
  rw [pairs_sum (rate2_adds hm dF) hl, Sparse.get_nil, zero_add, if_pos hk]
  exact sum_congr rfl fun j _ => by ring

/-- **C41.** What one field gains the others lose. -/
theorem rates_total [CharZero α] {mu : Int → Int → α} (hm : ∀ h j, mu h j = mu j h) (dF : Sparse.Cell α) {l : List Int} (hl : l.Nodup) :
    ∑ k ∈ l.toFinset, Sparse.get (rates mu dF l) k = 0 := by
  have e1 : ∑ k ∈ l.toFinset, Sparse.get (rates mu dF l) k = ∑ k ∈ l.toFinset, ∑ j ∈ l.toFinset, mu k j * (Sparse.get dF j - Sparse.get dF k) := by
    refine sum_congr rfl fun k hk => ?_
    rw [rates_spec hm dF hl (List.mem_toFinset.1 hk), ← add_sum_erase _ _ hk]; ring
  have e2 : ∑ k ∈ l.toFinset, ∑ j ∈ l.toFinset, mu k j * (Sparse.get dF j - Sparse.get dF k) = -∑ k ∈ l.toFinset, ∑ j ∈ l.toFinset, mu k j * (Sparse.get dF j - Sparse.get dF k) := by
    conv_lhs => rw [sum_comm]
    rw [← sum_neg_distrib]
    refine sum_congr rfl fun j _ => ?_
    rw [← sum_neg_distrib]
    exact sum_congr rfl fun k _ => by rw [hm k j]; ring
  rw [e1]
  have h2 : (2 : α) * (∑ k ∈ l.toFinset, ∑ j ∈ l.toFinset, mu k j * (Sparse.get dF j - Sparse.get dF k)) = 0 := by linear_combination e2
  exact (mul_eq_zero.1 h2).resolve_left two_ne_zero

/-! ### Three fields (anisotropic example) -/

/-- Sum of `y i * y j` over the unordered pairs of different fields in `S`. -/
def pairProducts (y : Sparse.Cell α) (S : Finset Int) : α := ∑ i ∈ S, ∑ j ∈ S.erase i, Sparse.get y i * Sparse.get y j / 2

theorem pairProducts_eq (y : Sparse.Cell α) (S : Finset Int) :
    pairProducts y S = ((∑ i ∈ S, Sparse.get y i) ^ 2 - ∑ i ∈ S, Sparse.get y i ^ 2) / 2 := by
  have : ∀ i ∈ S, ∑ j ∈ S.erase i, Sparse.get y i * Sparse.get y j / 2 = (Sparse.get y i * (∑ j ∈ S, Sparse.get y j) - Sparse.get y i ^ 2) / 2 := by
    intro i hi
    rw [← add_sum_erase _ _ hi, mul_add, mul_sum, ← sum_div]; ring
  unfold pairProducts
  rw [sum_congr rfl this, ← sum_div, sum_sub_distrib, ← sum_mul]; ring

theorem pairProducts_insert [CharZero α] (y : Sparse.Cell α) {S : Finset Int} {h : Int} (hh : h ∉ S) :
    pairProducts y (insert h S) = pairProducts y S + Sparse.get y h * ∑ i ∈ S, Sparse.get y i := by
  rw [pairProducts_eq, pairProducts_eq, sum_insert hh, sum_insert hh]; ring

theorem triple_sum (y : Sparse.Cell α) {h j : Int} (hhj : h ≠ j) {t : List Int} (ht : t.Nodup) (hh : h ∉ t) (hj : j ∉ t) (d : Sparse.Cell α) (m : Int) :
    Sparse.get (t.foldl (fun d k => force3 y d h j k) d) m = Sparse.get d m + ((if m = h then 3 * Sparse.get y j * ∑ k ∈ t.toFinset, Sparse.get y k else 0) +
      (if m = j then 3 * Sparse.get y h * ∑ k ∈ t.toFinset, Sparse.get y k else 0) + if m ∈ t then 3 * Sparse.get y h * Sparse.get y j else 0) := by
  induction t generalizing d with
  | nil => simp
  | cons k t ih =>
    have hn := List.nodup_cons.1 ht
    have h1 : h ≠ k := fun e => hh (by simp [e])
    have h2 : j ≠ k := fun e => hj (by simp [e])
    rw [List.foldl_cons, ih hn.2 (fun h' => hh (by simp [h'])) (fun h' => hj (by simp [h']))]
    unfold force3
    simp only [Sparse.get_update]
    rw [List.toFinset_cons, sum_insert (by simpa using hn.1)]
    have hht : h ∉ t := fun h' => hh (by simp [h'])
    have hjt : j ∉ t := fun h' => hj (by simp [h'])
    by_cases e1 : m = h
    · subst e1
      simp only [if_true, if_neg hhj, if_neg h1, if_neg hht, List.mem_cons, h1, hht, or_self, if_false]; ring
    · by_cases e2 : m = j
      · subst e2
        simp only [if_true, if_neg e1, if_neg h2, if_neg hjt, List.mem_cons, h2, hjt, or_self, if_false]; ring
      · by_cases e3 : m = k
        · subst e3
          simp only [if_true, if_neg e1, if_neg e2, if_neg hn.1, List.mem_cons, true_or]; ring
        · simp only [if_neg e1, if_neg e2, if_neg e3, List.mem_cons, e3, false_or, if_false]

theorem forcesFrom_sum [CharZero α] {e w : Int → Int → α} (he : ∀ h j, e h j = e j h) (hw : ∀ h j, w h j = w j h) (lap y : Sparse.Cell α) {h : Int} {t : List Int} (ht : t.Nodup)
    (hh : h ∉ t) (d : Sparse.Cell α) (m : Int) :
    Sparse.get (forcesFrom e w lap y h t d) m = Sparse.get d m +
      ((if m = h then (∑ j ∈ t.toFinset, (e h j * Sparse.get lap j + w h j * Sparse.get y j)) + 3 * pairProducts y t.toFinset else 0) +
      if m ∈ t then (e m h * Sparse.get lap h + w m h * Sparse.get y h) + 3 * Sparse.get y h * ∑ j ∈ t.toFinset.erase m, Sparse.get y j else 0) := by
  induction t generalizing d with
  | nil => simp [forcesFrom, pairProducts]
  | cons j t ih =>
    have hn := List.nodup_cons.1 ht
    have hhj : h ≠ j := fun e => hh (by simp [e])
    have hht : h ∉ t := fun h' => hh (by simp [h'])
    have hjt : j ∉ t.toFinset := by simpa using hn.1
    rw [forcesFrom, ih hn.2 hht, triple_sum y hhj hn.2 hht hn.1, force2_adds he hw lap y]
    simp only [Sparse.get_update]
    rw [List.toFinset_cons]
    by_cases e1 : m = h
    · subst e1
      simp only [if_true, if_neg hhj, if_neg hht, List.mem_cons, hhj, hht, or_self, if_false]
      rw [sum_insert hjt, pairProducts_insert y hjt]; ring
    · by_cases e2 : m = j
      · subst e2
        simp only [if_true, if_neg e1, if_neg hn.1, List.mem_cons, true_or]
        rw [erase_insert hjt]; ring
      · by_cases e3 : m ∈ t
        · simp only [if_neg e1, if_neg e2, if_pos e3, List.mem_cons, e2, e3, false_or, if_true, if_false]
          rw [erase_insert_of_ne (Ne.symm e2), sum_insert (by simp [hn.1])]; ring
        · simp only [if_neg e1, if_neg e2, if_neg e3, List.mem_cons, e2, e3, or_self, if_false]; ring

/-- **C41.** The variational derivative of field `k` in the anisotropic example: the two-field contributions of all other fields and three times the products of all
pairs of other fields. -/
theorem forces3_spec [CharZero α] {e w : Int → Int → α} (he : ∀ h j, e h j = e j h) (hw : ∀ h j, w h j = w j h) (lap y : Sparse.Cell α) {l : List Int} (hl : l.Nodup) {k : Int} (hk : k ∈ l) :
    Sparse.get (forces3 e w lap y l []) k =
      (∑ j ∈ l.toFinset.erase k, (e k j * Sparse.get lap j + w k j * Sparse.get y j)) + 3 * pairProducts y (l.toFinset.erase k) := by
  have key : ∀ (l : List Int), l.Nodup → ∀ d : Sparse.Cell α, Sparse.get (forces3 e w lap y l d) k = Sparse.get d k +
      if k ∈ l then (∑ j ∈ l.toFinset.erase k, (e k j * Sparse.get lap j + w k j * Sparse.get y j)) + 3 * pairProducts y (l.toFinset.erase k) else 0 := by
    intro l
    induction l with
    | nil => intro _ d; simp [forces3]
    | cons h t ih =>
      intro hl d
      have hn := List.nodup_cons.1 hl
      have hht : h ∉ t.toFinset := by simpa using hn.1
      rw [forces3, ih hn.2, forcesFrom_sum he hw lap y hn.2 hn.1, List.toFinset_cons]
      by_cases e1 : k = h
      · subst e1
        simp only [if_true, if_neg hn.1, List.mem_cons, true_or]
        rw [erase_insert hht]; ring
      · by_cases e3 : k ∈ t
        · simp only [if_neg e1, if_pos e3, List.mem_cons, e1, e3, false_or, if_true, if_false]
          have : h ∉ t.toFinset.erase k := by simp [hn.1]
          rw [erase_insert_of_ne (Ne.symm e1), sum_insert this, pairProducts_insert y this]; ring
        · simp only [if_neg e1, if_neg e3, List.mem_cons, e1, e3, or_self, if_false]; ring
  rw [key l hl, if_pos hk, Sparse.get_nil, zero_add]

end

section
variable [Field α] [LinearOrder α] [IsStrictOrderedRing α]

/-! ## Clamping and projection -/

theorem clamp_range (v : α) : 0 ≤ clamp v ∧ clamp v ≤ 1 := by
  unfold clamp
  dsimp only
  split_ifs with h1 h2 h2
  · exact ⟨le_rfl, zero_le_one⟩
  · exact ⟨zero_le_one, le_rfl⟩
  · exact ⟨le_rfl, zero_le_one⟩
  · exact ⟨not_lt.1 h2, not_lt.1 h1⟩

theorem clamp_mem {v : α} (h0 : 0 ≤ v) (h1 : v ≤ 1) : clamp v = v := by
  unfold clamp
  dsimp only
  rw [if_neg (not_lt.2 h1), if_neg (not_lt.2 h0)]

theorem clamp_gt {v t : α} (h : t < v) (ht : t < 1) : t < clamp v := by
  unfold clamp
  dsimp only
  split_ifs with h1 h2 h2
  · exact absurd h2 (not_lt.2 zero_le_one)
  · exact ht
  · exact h.trans h2
  · exact h

omit [IsStrictOrderedRing α] in
theorem assign_eq (value : Int → α) {l : List Int} (hl : l.Nodup) {z : Sparse.Cell α} (hz : Ok z) :
    (assign value l z).1 = l.foldl (fun z i => if clamp (value i) > tiny then Sparse.update z i fun _ => clamp (value i) else z) z ∧
    (assign value l z).2 = ∑ i ∈ l.toFinset, if clamp (value i) > tiny then clamp (value i) else Sparse.get z i := by
  have key : ∀ (l : List Int), l.Nodup → ∀ (z : Sparse.Cell α), Ok z → ∀ t : α,
      l.foldl (fun (a : Sparse.Cell α × α) i =>
        let z := if clamp (value i) > tiny then Sparse.update a.1 i fun _ => clamp (value i) else a.1
        (z, a.2 + Sparse.get z i)) (z, t) =
      (l.foldl (fun z i => if clamp (value i) > tiny then Sparse.update z i fun _ => clamp (value i) else z) z,
        t + ∑ i ∈ l.toFinset, if clamp (value i) > tiny then clamp (value i) else Sparse.get z i) := by
    intro l
    induction l with
    | nil => intro _ z _ t; simp
    | cons i l ih =>
      intro hl z hz t
      have hn := List.nodup_cons.1 hl
      simp only [List.foldl_cons]
      by_cases hv : clamp (value i) > tiny
      · simp only [if_pos hv]
        rw [ih hn.2 _ (hz.update _ _), Sparse.get_update, if_pos rfl, List.toFinset_cons, sum_insert (by simpa using hn.1), if_pos hv, add_assoc]
        congr 3
        refine sum_congr rfl fun j hj => ?_
        have : j ≠ i := fun e => hn.1 (by rw [← e]; exact List.mem_toFinset.1 hj)
        rw [Sparse.get_update, if_neg this]
      · simp only [if_neg hv]
        rw [ih hn.2 _ hz, List.toFinset_cons, sum_insert (by simpa using hn.1), if_neg hv, add_assoc]
  have := key l hl z hz 0
  rw [zero_add] at this
  unfold assign
  rw [this]
  exact ⟨rfl, rfl⟩

/-- The value a field has before projection: its clamped new value if that exceeds the threshold, otherwise what the cell held before. -/
def raw (value : Int → α) (z : Sparse.Cell α) (k : Int) : α := if clamp (value k) > tiny then clamp (value k) else Sparse.get z k

/-- What `project (assign …)` leaves in the cell. -/
theorem project_assign (value : Int → α) {l : List Int} (hl : l.Nodup) {z : Sparse.Cell α} (hz : Ok z) :
    Ok (project (assign value l z)) ∧
    (∀ k, k ∈ keys (project (assign value l z)) ↔ k ∈ keys z ∨ (k ∈ l ∧ clamp (value k) > tiny)) ∧
    ∀ k, Sparse.get (project (assign value l z)) k =
      (if k ∈ l then raw value z k else Sparse.get z k) * (∑ i ∈ l.toFinset, raw value z i)⁻¹ := by
  obtain ⟨e1, e2⟩ := assign_eq value hl hz
  obtain ⟨a, b, c⟩ := fold_assign (fun k => clamp (value k) > tiny) (fun k => clamp (value k)) l z hz
  unfold project
  rw [← e1] at a b c
  obtain ⟨m1, m2, m3⟩ := Sparse.mulEq_correct (if |(assign value l z).2| > 0 then 1 / (assign value l z).2 else 0) a
  refine ⟨m2, fun k => by rw [m3, c], fun k => ?_⟩
  rw [m1, b]
  have hsum : (if |(assign value l z).2| > 0 then 1 / (assign value l z).2 else 0) = (∑ i ∈ l.toFinset, raw value z i)⁻¹ := by
    have : ∑ i ∈ l.toFinset, raw value z i = (assign value l z).2 := e2.symm
    rw [this]
    split_ifs with h
    · rw [one_div]
    · have : (assign value l z).2 = 0 := by by_contra hc; exact h (abs_pos.2 hc)
      rw [this, inv_zero]
  rw [hsum]
  congr 1
  unfold raw
  by_cases hk : k ∈ l <;> simp [hk]

/-! ## C41 -/

/-- A point of the Gibbs simplex: fields listed once, values in (0,1], sum 1. -/
structure Simplex (c : Sparse.Cell α) : Prop where
  once : Ok c
  range : ∀ e ∈ c, 0 < e.2 ∧ e.2 ≤ 1
  total : (c.map Prod.snd).sum = 1

omit [LinearOrder α] [IsStrictOrderedRing α] in
theorem sum_keys {c : Sparse.Cell α} (hc : Ok c) : (c.map Prod.snd).sum = ∑ k ∈ (keys c).toFinset, Sparse.get c k := by
  have hnd : (keys c).Nodup := hc
  rw [List.sum_toFinset _ hnd, keys, List.map_map]
  congr 1
  apply List.map_congr_left
  intro e he
  rw [Function.comp_apply, Sparse.get_of_mem hc he]

omit [LinearOrder α] [IsStrictOrderedRing α] in
theorem sum_over {c : Sparse.Cell α} (hc : Ok c) {S : Finset Int} (hS : (keys c).toFinset ⊆ S) : (c.map Prod.snd).sum = ∑ k ∈ S, Sparse.get c k := by
  rw [sum_keys hc]
  refine sum_subset hS fun k _ hk => Sparse.get_of_not_mem fun h => hk (List.mem_toFinset.2 h)

/-- **C41.** The new values of the fields add up to the same as the old ones (before they are clamped). -/
theorem free_total {mu : Int → Int → α} (hm : ∀ h j, mu h j = mu j h) (dF : Sparse.Cell α) (dt S : α) (y : Sparse.Cell α) {l : List Int} (hl : l.Nodup) :
    ∑ k ∈ l.toFinset, freeValue dt S y (rates mu dF l) k = ∑ k ∈ l.toFinset, Sparse.get y k := by
  unfold freeValue
  rw [sum_add_distrib, ← mul_sum, rates_total hm dF hl, mul_zero, add_zero]

theorem tiny_pos : (0 : α) < tiny := by unfold tiny; positivity

theorem tiny_lt_one : (tiny : α) < 1 := by
  unfold tiny
  rw [div_lt_one (by positivity)]
  norm_num

theorem raw_nil (value : Int → α) (k : Int) : raw value [] k = if clamp (value k) > tiny then clamp (value k) else 0 := rfl

theorem raw_nonneg (value : Int → α) (k : Int) : 0 ≤ raw value [] k := by
  rw [raw_nil]; split_ifs
  · exact (clamp_range _).1
  · exact le_rfl

/-- **C41.** Clamping, dropping and projecting into an empty cell gives a point of the simplex as soon as one value exceeds the threshold. -/
theorem project_simplex (value : Int → α) {l : List Int} (hl : l.Nodup) (h : ∃ k ∈ l, tiny < value k) : Simplex (project (assign value l [])) := by
  obtain ⟨a, b, c⟩ := project_assign value hl (z := []) (by simp [Ok, keys])
  obtain ⟨k0, hk0, hv0⟩ := h
  set r := project (assign value l []) with hr
  have hpos : 0 < ∑ i ∈ l.toFinset, raw value [] i := by
    refine lt_of_lt_of_le ?_ (single_le_sum (fun i _ => raw_nonneg value i) (List.mem_toFinset.2 hk0))
    rw [raw_nil, if_pos (clamp_gt hv0 tiny_lt_one)]
    exact tiny_pos.trans (clamp_gt hv0 tiny_lt_one)
  have hb : ∀ k, k ∈ keys r ↔ k ∈ l ∧ clamp (value k) > tiny := fun k => by rw [b]; simp [keys]
  have hc : ∀ k ∈ l, Sparse.get r k = raw value [] k * (∑ i ∈ l.toFinset, raw value [] i)⁻¹ := fun k hk => by rw [c, if_pos hk]
  refine ⟨a, fun e he => ?_, ?_⟩
  · have hk := (hb e.1).1 (List.mem_map.2 ⟨e, he, rfl⟩)
    rw [← Sparse.get_of_mem a he, hc _ hk.1]
    have h1 : 0 < raw value [] e.1 := by rw [raw_nil, if_pos hk.2]; exact tiny_pos.trans hk.2
    refine ⟨mul_pos h1 (inv_pos.2 hpos), ?_⟩
    rw [← div_eq_mul_inv, div_le_one hpos]
    exact single_le_sum (fun i _ => raw_nonneg value i) (List.mem_toFinset.2 hk.1)
  · rw [sum_over a (S := l.toFinset) (fun k hk => by simpa using ((hb k).1 (by simpa using hk)).1), sum_congr rfl fun k hk => hc k (List.mem_toFinset.1 hk), ← sum_mul]
    exact mul_inv_cancel₀ hpos.ne'

/-- If no value exceeds the threshold, the cell stays empty. -/
theorem project_none (value : Int → α) {l : List Int} (hl : l.Nodup) (h : ∀ k ∈ l, clamp (value k) ≤ tiny) : project (assign value l []) = [] := by
  obtain ⟨a, b, c⟩ := project_assign value hl (z := []) (by simp [Ok, keys])
  have : keys (project (assign value l [])) = [] := List.eq_nil_iff_forall_not_mem.2 fun k hk => by
    rcases (b k).1 hk with h' | ⟨h1, h2⟩
    · simp [keys] at h'
    · exact absurd h2 (not_lt.2 (h k h1))
  exact List.map_eq_nil_iff.1 this

/-- **C41.** One update of a node on the simplex, into an empty cell, is on the simplex: the values are in (0,1] and add up to 1, whatever the driving forces, symmetric
mobilities and time step. Missing for the full property: `latter(node)` need not be empty (see `pairNode_keeps`, `stale_total`). -/
theorem pairNode_simplex_partial {mu : Int → Int → α} (hm : ∀ h j, mu h j = mu j h) (dF : Sparse.Cell α) (dt : α) {s : Sparse.Cell Int} (hs : Ok s) {y : Sparse.Cell α} (hy : Simplex y)
    (hsub : ∀ k ∈ keys y, k ∈ keys s) (hlen : s.length < 10 ^ 8) : Simplex (pairNode dF mu dt s y []) := by
  unfold pairNode
  by_cases h2 : s.length < 2
  · rw [if_pos h2]; exact hy
  · rw [if_neg h2]
    have hnd : (s.map Prod.fst).Nodup := hs
    refine project_simplex _ hnd ?_
    by_contra hc
    push Not at hc
    have ht := free_total hm dF dt (s.length : α) y hnd
    rw [← sum_over hy.once (S := (s.map Prod.fst).toFinset) (fun k hk => by simpa [keys] using hsub k (by simpa using hk)), hy.total] at ht
    have hle := sum_le_card_nsmul (s.map Prod.fst).toFinset (freeValue dt (s.length : α) y (rates mu dF (s.map Prod.fst))) tiny
      fun k hk => hc k (List.mem_toFinset.1 hk)
    rw [ht, List.toFinset_card_of_nodup hnd, List.length_map, nsmul_eq_mul] at hle
    have : (s.length : α) * tiny < 1 := by
      unfold tiny
      rw [mul_one_div, div_lt_one (by positivity)]
      exact_mod_cast hlen
    linarith

/-- **C41.** The same for `interface_field_evolves`. -/
theorem evolveNode_simplex_partial (dt epsilon w mu : α) {s : Sparse.Cell Int} (hs : Ok s) (lap : Sparse.Cell α) {y : Sparse.Cell α} (hy : Simplex y) (hsub : ∀ k ∈ keys y, k ∈ keys s)
    (hlen : s.length < 10 ^ 8) : Simplex (evolveNode dt epsilon w mu s lap y []) :=
  pairNode_simplex_partial (fun _ _ => rfl) _ dt hs hy hsub hlen

/-- **C41.** The same for the anisotropic grain-growth example. -/
theorem anisoNode_simplex_partial (dt : α) (energy : Int → Int → α) {mobility : Int → Int → α} (hm : ∀ h j, mobility h j = mobility j h) (eps w : α → α) {s : Sparse.Cell Int} (hs : Ok s)
    (lap : Sparse.Cell α) {y : Sparse.Cell α} (hy : Simplex y) (hsub : ∀ k ∈ keys y, k ∈ keys s) (hlen : s.length < 10 ^ 8) :
    Simplex (anisoNode dt energy mobility eps w s lap y []) :=
  pairNode_simplex_partial hm _ dt hs hy hsub hlen

/-- **C41.** What is left in the cell from before stays in it … -/
theorem pairNode_keeps (dF : Sparse.Cell α) (mu : Int → Int → α) (dt : α) {s : Sparse.Cell Int} (hs : Ok s) (h2 : 2 ≤ s.length) (y : Sparse.Cell α) {z : Sparse.Cell α} (hz : Ok z) {k : Int}
    (hk : k ∈ keys z) : k ∈ keys (pairNode dF mu dt s y z) := by
  unfold pairNode
  rw [if_neg (by omega)]
  have hnd : (s.map Prod.fst).Nodup := hs
  exact ((project_assign _ hnd hz).2.1 k).2 (.inl hk)

/-- … and spoils the sum: the values of the fields near the node add up to 1, and the left-over fields are added to that. -/
theorem stale_total (dF : Sparse.Cell α) (mu : Int → Int → α) (dt : α) {s : Sparse.Cell Int} (hs : Ok s) (h2 : 2 ≤ s.length) (y : Sparse.Cell α) {z : Sparse.Cell α} (hz : Ok z)
    (hne : ∑ i ∈ (keys s).toFinset, raw (freeValue dt (s.length : α) y (rates mu dF (keys s))) z i ≠ 0) :
    ((pairNode dF mu dt s y z).map Prod.snd).sum =
      1 + (∑ k ∈ (keys z).toFinset \ (keys s).toFinset, Sparse.get z k) * (∑ i ∈ (keys s).toFinset, raw (freeValue dt (s.length : α) y (rates mu dF (keys s))) z i)⁻¹ := by
  unfold pairNode
  rw [if_neg (by omega)]
  show ((project (assign (freeValue dt (s.length : α) y (rates mu dF (keys s))) (keys s) z)).map Prod.snd).sum = _
  have hnd : (keys s).Nodup := hs
  obtain ⟨a, b, c⟩ := project_assign (freeValue dt (s.length : α) y (rates mu dF (keys s))) hnd hz
  rw [sum_over a (S := (keys s).toFinset ∪ (keys z).toFinset \ (keys s).toFinset), sum_union disjoint_sdiff]
  · congr 1
    · rw [sum_congr rfl fun k hk => by rw [c, if_pos (List.mem_toFinset.1 hk)], ← sum_mul]
      exact mul_inv_cancel₀ hne
    · rw [sum_mul]
      refine sum_congr rfl fun k hk => ?_
      rw [c, if_neg fun h => (mem_sdiff.1 hk).2 (List.mem_toFinset.2 h)]
  · intro k hk
    rw [union_sdiff_self_eq_union, mem_union, List.mem_toFinset, List.mem_toFinset]
    rcases (b k).1 (List.mem_toFinset.1 hk) with h | h
    · exact .inr h
    · exact .inl h.1

/-! ## Grids -/

/-- Every node can reach its neighbours. -/
def Reach (bd : Build) (g : Shape) : Prop := ∀ i : Nat, i < g.nodes.toNat → InReach bd g (g.position i)

/-- One pass over the grid applies the node update to every node, with the neighbourhood and the Laplacian of the old grid, and changes no other cell. -/
theorem sweep_spec {bd : Build} {g : Shape} (hg : g.Wf) (hser : bd = .serial → g.ghosts = 0) (hr : Reach bd g) (dx : Nat → α)
    (f : Nat → Sparse.Cell Int → Sparse.Cell α → Sparse.Cell α → Sparse.Cell α → Sparse.Cell α) {old : Int → Sparse.Cell α} (hold : ∀ p, Ok (old p)) (new : Int → Sparse.Cell α) :
    ∃ out, sweep bd g dx f old new = .ok out ∧
      (∀ i : Nat, i < g.nodes.toNat → ∃ s lap, nearby bd g old (g.position i) = .ok s ∧ (2 ≤ s.length → Stencil.laplacianSparse bd g dx old (g.position i) = .ok lap) ∧
        out (g.atNode bd i) = f i s lap (old (g.atNode bd i)) (new (g.atNode bd i))) ∧
      ∀ p, (∀ i : Nat, i < g.nodes.toNat → p ≠ g.atNode bd i) → out p = new p := by
  have hdim := hg.dim_pos
  have key : ∀ n ≤ g.nodes.toNat, ∃ out, (List.range n).foldlM (fun out (i : Nat) =>
      (nearby bd g old (g.position i)).bind fun s =>
      (deref g old (g.atNode bd i)).bind fun y =>
      (deref g out (g.atNode bd i)).bind fun z =>
      (if s.length < 2 then .ok [] else Stencil.laplacianSparse bd g dx old (g.position i)).bind fun lap =>
      store g out (g.atNode bd i) (f i s lap y z)) new = Outcome.ok out ∧
      (∀ i : Nat, i < n → ∃ s lap, nearby bd g old (g.position i) = .ok s ∧ (2 ≤ s.length → Stencil.laplacianSparse bd g dx old (g.position i) = .ok lap) ∧
        out (g.atNode bd i) = f i s lap (old (g.atNode bd i)) (new (g.atNode bd i))) ∧
      ∀ p, (∀ i : Nat, i < n → p ≠ g.atNode bd i) → out p = new p := by
    intro n
    induction n with
    | zero => exact fun _ => ⟨new, rfl, by simp, fun _ _ => rfl⟩
    | succ n ih =>
      intro hn
      obtain ⟨out, h1, h2, h3⟩ := ih (by omega)
      obtain ⟨s, s1, -, -⟩ := nearby_spec hdim (hr n (by omega)) old
      obtain ⟨lap, l1, -, -⟩ := Stencil.laplacianSparse_correct bd dx old hold (g.position n) (hr n (by omega))
      have hn0 := Shape.position_isNode hg (i := (n : Int)) (by omega) (by omega)
      have hb : 0 ≤ g.atNode bd n ∧ g.atNode bd n < g.cells := by
        rw [Shape.atNode_eq_atVec hg bd hser (by omega) (by omega)]
        exact (hr n (by omega)).1
      have hfresh : ∀ i : Nat, i < n → g.atNode bd n ≠ g.atNode bd i := by
        intro i hi e
        have := ParallelRun.atNode_inj hg hser (by omega) (by omega) (by omega) (by omega) e
        omega
      have hd : ∀ data : Int → Sparse.Cell α, deref g data (g.atNode bd n) = .ok (data (g.atNode bd n)) := fun data => if_pos hb
      rw [List.range_succ, List.foldlM_append, h1]
      simp only [Outcome.bind_eq, Outcome.ok_bind, List.foldlM_cons, List.foldlM_nil, Outcome.pure_eq, s1, hd]
      have hlap : ∃ lap', (if s.length < 2 then Outcome.ok [] else Stencil.laplacianSparse bd g dx old (g.position n)) = .ok lap' ∧
          (2 ≤ s.length → Stencil.laplacianSparse bd g dx old (g.position n) = .ok lap') := by
        by_cases hs : s.length < 2
        · exact ⟨[], if_pos hs, fun h => by omega⟩
        · exact ⟨lap, by rw [if_neg hs, l1], fun _ => l1⟩
      obtain ⟨lap', e1, e2⟩ := hlap
      rw [e1, Outcome.ok_bind, h3 _ hfresh]
      have hst : ∀ v, store g out (g.atNode bd n) v = .ok (Function.update out (g.atNode bd n) v) := fun v => if_pos hb
      rw [hst]
      refine ⟨_, rfl, fun i hi => ?_, fun p hp => ?_⟩
      · by_cases hin : i = n
        · subst hin
          exact ⟨s, lap', s1, e2, by rw [Function.update_self]⟩
        · obtain ⟨s', lap'', a, b, c⟩ := h2 i (by omega)
          exact ⟨s', lap'', a, b, by rw [Function.update_of_ne (fun e => hfresh i (by omega) e.symm)]; exact c⟩
      · rw [Function.update_of_ne (hp n (by omega))]
        exact h3 p fun i hi => hp i (by omega)
  exact key _ le_rfl

omit [IsStrictOrderedRing α] in
theorem isoNode_ok (dt : α) (s : Sparse.Cell Int) (lap : Sparse.Cell α) {y z : Sparse.Cell α} (hy : Ok y) (hz : Ok z) : Ok (isoNode dt s lap y z) := by
  by_cases h : s.length < 2
  · rw [isoNode_bulk dt lap y z h]; exact hy
  · exact (isoNode_spec dt hz (by omega)).1

/-- **C41.** The first pass of the anisotropic example (whose new grid is empty) keeps every node on the simplex. -/
theorem aniso_first_step_partial {bd : Build} {g : Shape} (hg : g.Wf) (hser : bd = .serial → g.ghosts = 0) (hr : Reach bd g) (dx : Nat → α) (dt : α) (energy : Int → Int → α)
    {mobility : Int → Int → α} (hm : ∀ h j, mobility h j = mobility j h) (eps w : α → α) {old : Int → Sparse.Cell α} (hold : ∀ p, Simplex (old p))
    (hfew : ∀ i s, nearby bd g old (g.position i) = .ok s → s.length < 10 ^ 8) :
    ∃ out, sweep bd g dx (fun _ => anisoNode dt energy mobility eps w) old (fun _ => []) = .ok out ∧ ∀ i : Nat, i < g.nodes.toNat → Simplex (out (g.atNode bd i)) := by
  obtain ⟨out, h1, h2, -⟩ := sweep_spec hg hser hr dx (fun _ => anisoNode dt energy mobility eps w) (fun p => (hold p).once) fun _ => []
  refine ⟨out, h1, fun i hi => ?_⟩
  obtain ⟨s, lap, a, -, c⟩ := h2 i hi
  obtain ⟨s', a', hs, hk⟩ := nearby_spec hg.dim_pos (hr i hi) old
  obtain rfl : s = s' := by rw [a] at a'; exact Outcome.ok.inj a'
  rw [c]
  refine anisoNode_simplex_partial dt energy hm eps w hs lap (hold _) (fun k hkk => (hk k).2 (.inl ?_)) (hfew _ _ a)
  unfold view
  rwa [← Shape.atNode_eq_atVec hg bd hser (by omega) (by omega)]

/-- **C44.** The isotropic run never fails and its cells list every field at most once. -/
theorem isoRun_total {g : Shape} (hg : g.Wf) (h0 : g.ghosts = 0) (hr : Reach .serial g) (dx : Nat → α) (dt : α) {data : Int → Sparse.Cell α} (hd : ∀ p, Ok (data p)) (n : Nat) :
    ∃ a b, isoRun g dx dt n data = .ok (a, b) ∧ (∀ p, Ok (a p)) ∧ ∀ p, Ok (b p) := by
  induction n with
  | zero => exact ⟨data, _, rfl, hd, fun p => by simp [Ok, keys]⟩
  | succ n ih =>
    obtain ⟨a, b, h1, h2, h3⟩ := ih
    obtain ⟨out, e1, e2, e3⟩ := sweep_spec hg (bd := .serial) (fun _ => h0) hr dx (fun _ => isoNode dt) h2 b
    refine ⟨out, a, by rw [isoRun, h1, Outcome.ok_bind, isoStep, e1]; rfl, fun p => ?_, h2⟩
    by_cases hp : ∃ i : Nat, i < g.nodes.toNat ∧ p = g.atNode .serial i
    · obtain ⟨i, hi, rfl⟩ := hp
      obtain ⟨s, lap, -, -, c⟩ := e2 i hi
      rw [c]; exact isoNode_ok dt s lap (h2 _) (h3 _)
    · rw [e3 p fun i hi e => hp ⟨i, hi, e⟩]; exact h3 p

/-- **C44.** The property is false in general: as long as two fields are listed near a node, no field listed at the node ever leaves it – what step `n` wrote is still
listed after step `n+2`, whatever the computed values. -/
theorem isoRun_keeps {g : Shape} (hg : g.Wf) (h0 : g.ghosts = 0) (hr : Reach .serial g) (dx : Nat → α) (dt : α) {data : Int → Sparse.Cell α} (hd : ∀ p, Ok (data p)) (n : Nat) :
    ∃ a b c, (∃ r, isoRun g dx dt n data = .ok (a, r)) ∧ isoRun g dx dt (n + 1) data = .ok (b, a) ∧ isoRun g dx dt (n + 2) data = .ok (c, b) ∧
      ∀ i : Nat, i < g.nodes.toNat → ∀ s, nearby .serial g b (g.position i) = .ok s → 2 ≤ s.length → ∀ k ∈ keys (a i), k ∈ keys (c i) := by
  obtain ⟨a, r, h1, h2, h3⟩ := isoRun_total hg h0 hr dx dt hd n
  obtain ⟨b, r', h1', h2', -⟩ := isoRun_total hg h0 hr dx dt hd (n + 1)
  have hra : r' = a := by
    obtain ⟨out, e1, -, -⟩ := sweep_spec hg (bd := .serial) (fun _ => h0) hr dx (fun _ => isoNode dt) h2 r
    rw [isoRun, h1, Outcome.ok_bind, isoStep, e1] at h1'
    exact (congrArg Prod.snd (Outcome.ok.inj h1')).symm
  subst hra
  obtain ⟨c, e1, e2, -⟩ := sweep_spec hg (bd := .serial) (fun _ => h0) hr dx (fun _ => isoNode dt) h2' r'
  refine ⟨r', b, c, ⟨r, h1⟩, h1', by rw [isoRun, h1', Outcome.ok_bind, isoStep, e1]; rfl, fun i hi s hs hlen k hk => ?_⟩
  obtain ⟨s', lap, a1, -, a3⟩ := e2 i hi
  obtain rfl : s' = s := by rw [a1] at hs; exact Outcome.ok.inj hs
  have hi' : c (i : Int) = isoNode dt s' lap (b i) (r' i) := a3
  rw [hi']
  exact ((isoNode_spec dt (h2 _) hlen).2.2 k).2 (.inl hk)

end

/-! ## Witnesses -/

/-- A periodic line of `n` nodes. -/
def line (n : Int) : Shape := ⟨1, fun _ => 0, fun _ => n, fun _ => .periodic, fun _ => .periodic, 0⟩

theorem line_wf {n : Int} (hn : 0 < n) : (line n).Wf := ⟨Nat.zero_lt_one, fun _ _ => hn, le_refl (0 : Int)⟩

theorem line_reach {n : Int} (hn : 0 < n) : Reach .serial (line n) := fun i hi =>
  Stencil.inReach_serial (line_wf hn) (Shape.position_isNode (line_wf hn) (by omega) (by omega)) (fun _ _ => ⟨by simp [line], by simp [line]⟩) fun _ _ h => by
    rcases h with h | h <;> simp [line] at h

/-- Field 0 everywhere; a trace of field 1 at node 0. -/
def trace (p : Int) : Sparse.Cell ℚ := if p = 0 then [(0, 1), (1, 108 / 10 ^ 10)] else [(0, 1)]

/-- **C44.** Concretely (the time step of the example, spacing 1): the value computed in the second step is below the threshold, but the node then lists the field with the
value it had two steps before. -/
theorem resurrected :
    ((isoRun (line 3) (fun _ => 1) (1 / 100) 1 trace).bind fun r => (Stencil.laplacianSparse .serial (line 3) (fun _ => 1) r.1 (fun _ => 0)).bind fun lap =>
      .ok (decide (isoValue (1 / 100) lap (r.1 0) 1 < tiny))) = .ok true ∧
    ((isoRun (line 3) (fun _ => 1) (1 / 100) 2 trace).bind fun r => .ok (Sparse.get (r.1 0) 1)) = .ok (Sparse.get (trace 0) 1) := by
  constructor <;> decide +kernel

/-- Two fields everywhere; a little of a third at node 0. -/
def third (p : Int) : Sparse.Cell ℚ := if p = 0 then [(0, 1 / 2), (1, 49 / 100), (2, 1 / 100)] else [(0, 1 / 2), (1, 1 / 2)]

/-- The node update of the anisotropic example with `gamma = mu = 1`. -/
def unitNode : Nat → Sparse.Cell Int → Sparse.Cell ℚ → Sparse.Cell ℚ → Sparse.Cell ℚ → Sparse.Cell ℚ :=
  fun _ => anisoNode (1 / 100) (fun _ _ => 1) (fun _ _ => 1) (fun _ => 5 / 2) fun _ => 1 / 2

/-- **C41.** The property is false after the second step: the third field vanishes in the first step, comes back in the second, and the node's values add up to 1.01. -/
theorem not_simplex :
    ((sweep .serial (line 3) (fun _ => 1) unitNode third fun _ => []).bind fun r => .ok (keys (r 0))) = .ok [0, 1] ∧
    ((sweep .serial (line 3) (fun _ => 1) unitNode third fun _ => []).bind fun r => (sweep .serial (line 3) (fun _ => 1) unitNode r third).bind fun q =>
      .ok (((q 0).map Prod.snd).sum)) = .ok (101 / 100) := by
  constructor <;> decide +kernel

example : Simplex (third 0) := ⟨by unfold Ok; decide +kernel, by decide +kernel, by decide +kernel⟩

example : Simplex (evolveNode (1 / 100 : ℚ) 1 2 1 [(0, 1), (1, 1)] [(0, 1), (1, -1)] [(0, 1 / 4), (1, 3 / 4)] []) :=
  evolveNode_simplex_partial _ _ _ _ (by unfold Ok; decide) _ ⟨by unfold Ok; decide +kernel, by decide +kernel, by decide +kernel⟩ (by decide) (by decide)

/-- Particle (field 0) at a node with a neighbouring grain. -/
def particle (p : Int) : Sparse.Cell ℚ := if p = 1 then [(0, 1)] else [(1, 1)]

/-- **C51.** The comment "particles have zero mobility" is false: with the node's number tested instead of the field's, the particle at node 1 shrinks. -/
theorem particle_moves :
    ((sweep .serial (line 3) (fun _ => 1) (zenerNode (1 / 100)) particle fun _ => []).bind fun r => .ok (Sparse.get (r 1) 0)) = .ok (96 / 100) ∧ Sparse.get (particle 1) 0 = 1 := by
  constructor <;> decide +kernel

end MMSP.SparsePF
