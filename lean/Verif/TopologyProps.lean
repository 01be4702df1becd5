import Verif.Topology
import Verif.SpinProps
import Verif.SparseProps
import Verif.ConvertProps
import Verif.BufferProps
import Mathlib.Algebra.BigOperators.Ring.Finset
import Mathlib.Algebra.Order.Field.Rat
import Mathlib.Tactic.Ring
import Mathlib.Tactic.FieldSimp
import Mathlib.Tactic.Linarith
/-!
# Grain topology (C46)
-/

namespace MMSP.Topology

open Stencil (gridAt)

/-! ## Sets -/

/-- Ascending. -/
def Asc (s : Ids) : Prop := s.Pairwise (· < ·)

theorem mem_insertId {i k : Nat} {s : Ids} : k ∈ insertId i s ↔ k = i ∨ k ∈ s := by
  induction s with
  | nil => simp [insertId]
  | cons a s ih =>
    rw [insertId]
    split_ifs with h1 h2
    · simp
    · subst h2; simp
    · simp only [List.mem_cons, ih]
      tauto

theorem asc_insertId {i : Nat} {s : Ids} (h : Asc s) : Asc (insertId i s) := by
  unfold Asc at h ⊢
  induction s with
  | nil => simp [insertId]
  | cons a s ih =>
    rw [List.pairwise_cons] at h
    rw [insertId]
    split_ifs with h1 h2
    · refine List.pairwise_cons.2 ⟨fun b hb => ?_, List.pairwise_cons.2 h⟩
      rcases List.mem_cons.1 hb with rfl | hb
      · exact h1
      · exact h1.trans (h.1 b hb)
    · exact List.pairwise_cons.2 h
    · refine List.pairwise_cons.2 ⟨fun b hb => ?_, ih h.2⟩
      rcases mem_insertId.1 hb with rfl | hb
      · omega
      · exact h.1 b hb

theorem Asc.nodup {s : Ids} (h : Asc s) : s.Nodup := List.Pairwise.imp (fun h => Nat.ne_of_lt h) h

/-- Ascending lists with the same elements are the same. -/
theorem asc_ext {s t : Ids} (hs : Asc s) (ht : Asc t) (h : ∀ k, k ∈ s ↔ k ∈ t) : s = t := by
  unfold Asc at hs ht
  induction s generalizing t with
  | nil =>
    cases t with
    | nil => rfl
    | cons b t => exact absurd ((h b).2 (by simp)) (by simp)
  | cons a s ih =>
    cases t with
    | nil => exact absurd ((h a).1 (by simp)) (by simp)
    | cons b t =>
      rw [List.pairwise_cons] at hs ht
      have hab : a = b := by
        rcases List.mem_cons.1 ((h a).1 (by simp)) with e | e
        · exact e
        · rcases List.mem_cons.1 ((h b).2 (by simp)) with e' | e'
          · exact e'.symm
          · have := ht.1 a e; have := hs.1 b e'; omega
      subst hab
      congr 1
      apply ih hs.2 ht.2
      intro k
      constructor
      · intro hk
        rcases List.mem_cons.1 ((h k).1 (by simp [hk])) with e | e
        · have := hs.1 k hk; omega
        · exact e
      · intro hk
        rcases List.mem_cons.1 ((h k).2 (by simp [hk])) with e | e
        · have := ht.1 k hk; omega
        · exact e

/-! ## Neighbouring grains -/

section
variable {α : Type} [Field α] [LinearOrder α]

/-- Every node has a grain number. -/
def Known (g : Shape) (data : Int → Sparse.Cell α) (grain : Int → Nat) : Prop := ∀ n : Nat, n < g.nodes.toNat → Sparse.grainId (-1) (data n) = .ok (grain n)

omit [Field α] [LinearOrder α] in
/-- Neighbouring nodes: differing by at most one along each axis, in three dimensions not along all of them. -/
def Adjacent (g : Shape) (x y : Nat → Int) : Prop :=
  g.IsNode y ∧ (∀ j, j < g.dim → x j - 1 ≤ y j ∧ y j ≤ x j + 1) ∧ (∃ j, j < g.dim ∧ y j ≠ x j) ∧ (g.dim = 3 → ∃ j, j < g.dim ∧ y j = x j)

omit [Field α] [LinearOrder α] in
theorem inside_iff {g : Shape} {y : Nat → Int} : inside g y = true ↔ g.IsNode y := by
  unfold inside Shape.IsNode
  simp

omit [Field α] [LinearOrder α] in
theorem same_iff {g : Shape} {x y : Nat → Int} : same g x y = true ↔ ∀ j, j < g.dim → y j = x j := by
  unfold same
  simp

omit [Field α] [LinearOrder α] in
theorem corner_iff {g : Shape} {x y : Nat → Int} : corner g x y = true ↔ ∀ j, j < g.dim → y j = x j - 1 ∨ y j = x j + 1 := by
  unfold corner
  simp

theorem read_node {g : Shape} (hg : g.Wf) (h0 : g.ghosts = 0) {data : Int → Sparse.Cell α} {grain : Int → Nat} (hk : Known g data grain) {y : Nat → Int} (hy : g.IsNode y) :
    gridAt .serial g data y = .ok (data (g.rawOffset y)) ∧ Sparse.grainId (-1) (data (g.rawOffset y)) = .ok (grain (g.rawOffset y)) := by
  have hc : g.IsCell y := fun j hj => by have := hy j hj; omega
  have hb := Shape.rawOffset_bounds hg hc
  have hcn := Convert.cells_eq h0
  have hat : g.atVec .serial y = g.rawOffset y := Shape.atVec_eq_raw .serial fun j hj => checkBoundary_inside _ _ _ _ _ _ (hy j hj)
  obtain ⟨n, hn⟩ : ∃ n : Nat, g.rawOffset y = n := ⟨(g.rawOffset y).toNat, by omega⟩
  refine ⟨?_, ?_⟩
  · unfold gridAt deref; rw [hat]; exact if_pos hb
  · rw [hn]; exact hk n (by omega)

/-- **C46.** `check_neighbors` has no undefined behaviour and finds exactly the other grains in the neighbouring nodes inside the box, except that numbers are cut down to 16 bits
after the comparison. -/
theorem checkNeighbors_spec {g : Shape} (hg : g.Wf) (h0 : g.ghosts = 0) {data : Int → Sparse.Cell α} {grain : Int → Nat} (hk : Known g data grain) (me : Nat) (x : Nat → Int) :
    ∃ s, checkNeighbors g data me x = .ok s ∧ Asc s ∧ ∀ k, k ∈ s ↔ ∃ y, Adjacent g x y ∧ grain (g.rawOffset y) ≠ me ∧ k = toId (grain (g.rawOffset y)) := by
  unfold checkNeighbors
  rw [Spin.boxFold_eq _ List.nodup_range]
  have key : ∀ (L : List (Nat → Int)), (∀ o ∈ L, Spin.Near o) → ∀ adj : Ids, Asc adj → ∃ s, L.foldlM (fun a o => visit g data me x a (Spin.shift x o)) adj = Outcome.ok s ∧ Asc s ∧
      ∀ k, k ∈ s ↔ k ∈ adj ∨ ∃ o ∈ L, Adjacent g x (Spin.shift x o) ∧ grain (g.rawOffset (Spin.shift x o)) ≠ me ∧ k = toId (grain (g.rawOffset (Spin.shift x o))) := by
    intro L
    induction L with
    | nil => intro _ adj h; exact ⟨adj, rfl, h, by simp⟩
    | cons o L ih =>
      intro hL adj hadj
      have hnear := hL o (by simp)
      have hstep : ∃ s, visit g data me x adj (Spin.shift x o) = .ok s ∧ Asc s ∧ ∀ k, k ∈ s ↔ k ∈ adj ∨
          (Adjacent g x (Spin.shift x o) ∧ grain (g.rawOffset (Spin.shift x o)) ≠ me ∧ k = toId (grain (g.rawOffset (Spin.shift x o)))) := by
        unfold visit
        generalize hy : Spin.shift x o = y
        have hclose : ∀ j, j < g.dim → x j - 1 ≤ y j ∧ y j ≤ x j + 1 := by
          intro j _
          have := hnear j
          rw [← hy]; unfold Spin.shift; omega
        by_cases hin : inside g y = true
        · rw [if_pos hin]
          have hnode := inside_iff.1 hin
          by_cases hs : same g x y = true
          · rw [if_pos hs]
            refine ⟨adj, rfl, hadj, fun k => ⟨Or.inl, ?_⟩⟩
            rintro (h | ⟨⟨-, -, ⟨j, hj, hne⟩, -⟩, -⟩)
            · exact h
            · exact absurd (same_iff.1 hs j hj) hne
          · rw [if_neg hs]
            obtain ⟨r1, r2⟩ := read_node hg h0 hk hnode
            rw [r1, Outcome.ok_bind, r2, Outcome.ok_bind]
            by_cases hme : grain (g.rawOffset y) = me
            · rw [if_pos hme]
              exact ⟨adj, rfl, hadj, fun k => ⟨Or.inl, by rintro (h | ⟨-, h, -⟩); exacts [h, absurd hme h]⟩⟩
            · rw [if_neg hme]
              by_cases hcor : g.dim = 3 ∧ corner g x y = true
              · rw [if_pos hcor]
                refine ⟨adj, rfl, hadj, fun k => ⟨Or.inl, ?_⟩⟩
                rintro (h | ⟨⟨-, -, -, h3⟩, -⟩)
                · exact h
                · obtain ⟨j, hj, e⟩ := h3 hcor.1
                  have := corner_iff.1 hcor.2 j hj
                  omega
              · rw [if_neg hcor]
                refine ⟨_, rfl, asc_insertId hadj, fun k => ?_⟩
                rw [mem_insertId]
                have hadjc : Adjacent g x y := by
                  refine ⟨hnode, hclose, ?_, fun h3 => ?_⟩
                  · rw [same_iff] at hs
                    by_contra hno
                    exact hs fun j hj => by_contra fun hne => hno ⟨j, hj, hne⟩
                  · by_contra hno
                    apply hcor
                    refine ⟨h3, corner_iff.2 fun j hj => ?_⟩
                    have := hclose j hj
                    have : y j ≠ x j := fun e => hno ⟨j, hj, e⟩
                    omega
                constructor
                · rintro (h | h)
                  · exact Or.inr ⟨hadjc, hme, h⟩
                  · exact Or.inl h
                · rintro (h | ⟨-, -, h⟩)
                  · exact Or.inr h
                  · exact Or.inl h
        · rw [if_neg hin]
          refine ⟨adj, rfl, hadj, fun k => ⟨Or.inl, ?_⟩⟩
          rintro (h | ⟨⟨h, -⟩, -⟩)
          · exact h
          · exact absurd (inside_iff.2 h) hin
      obtain ⟨s1, e1, a1, m1⟩ := hstep
      obtain ⟨s2, e2, a2, m2⟩ := ih (fun o ho => hL o (by simp [ho])) s1 a1
      refine ⟨s2, ?_, a2, fun k => ?_⟩
      · rw [List.foldlM_cons, e1, Outcome.bind_eq, Outcome.ok_bind, e2]
      · rw [m2, m1, or_assoc]
        simp only [List.mem_cons, exists_eq_or_imp]
  obtain ⟨s, e, ha, hm⟩ := key _ (fun o ho => ((Spin.mem_offsets List.nodup_range).1 ho).1) [] (by simp [Asc])
  refine ⟨s, e, ha, fun k => ?_⟩
  rw [hm]
  constructor
  · rintro (h | ⟨o, -, h⟩)
    · simp at h
    · exact ⟨_, h⟩
  · rintro ⟨y, hadj, hne, rfl⟩
    right
    have hsame : ∀ j, j < g.dim → Spin.shift x (fun j => if j < g.dim then y j - x j else 0) j = y j := by
      intro j hj; unfold Spin.shift; dsimp only; rw [if_pos hj]; omega
    have hraw : g.rawOffset (Spin.shift x (fun j => if j < g.dim then y j - x j else 0)) = g.rawOffset y := rawOffset_congr hsame
    refine ⟨fun j => if j < g.dim then y j - x j else 0, (Spin.mem_offsets List.nodup_range).2 ⟨fun j => ?_, fun j hj => ?_⟩, ?_, ?_, ?_⟩
    · dsimp only
      split_ifs with h
      · have := hadj.2.1 j h; omega
      · omega
    · rw [List.mem_range] at hj; exact if_neg hj
    · refine ⟨fun j hj => by rw [hsame j hj]; exact hadj.1 j hj, fun j hj => by rw [hsame j hj]; exact hadj.2.1 j hj, ?_, fun h3 => ?_⟩
      · obtain ⟨j, hj, h⟩ := hadj.2.2.1; exact ⟨j, hj, by rw [hsame j hj]; exact h⟩
      · obtain ⟨j, hj, h⟩ := hadj.2.2.2 h3; exact ⟨j, hj, by rw [hsame j hj]; exact h⟩
    · rw [hraw]; exact hne
    · rw [hraw]

omit [Field α] [LinearOrder α] in
theorem toId_of_lt {i : Nat} (h : i < 65536) : toId i = i := by unfold toId; omega

omit [Field α] [LinearOrder α] in
theorem toId_lt (i : Int) : toId i < 65536 := by unfold toId; omega

/-- **C46.** No grain is its own neighbour if the numbers fit into 16 bits … -/
theorem not_own_neighbor {g : Shape} (hg : g.Wf) (h0 : g.ghosts = 0) {data : Int → Sparse.Cell α} {grain : Int → Nat} (hk : Known g data grain)
    (hfit : ∀ n : Nat, n < g.nodes.toNat → grain n < 65536) {me : Nat} {x : Nat → Int} {s : Ids} (h : checkNeighbors g data me x = .ok s) : me ∉ s := by
  obtain ⟨s', e, -, hm⟩ := checkNeighbors_spec hg h0 hk me x
  rw [h] at e; cases e
  rw [hm]
  rintro ⟨y, hy, hne, e⟩
  have hc : g.IsCell y := fun j hj => by have := hy.1 j hj; omega
  have hb := Shape.rawOffset_bounds hg hc
  have hcn := Convert.cells_eq h0
  have hf := hfit (g.rawOffset y).toNat (by omega)
  rw [show (((g.rawOffset y).toNat : Nat) : Int) = g.rawOffset y by omega] at hf
  rw [toId_of_lt hf] at e
  exact hne e.symm

/-- **C46, negation.** … and every grain with a larger number is, wherever two of its nodes touch. -/
theorem own_neighbor {g : Shape} (hg : g.Wf) (h0 : g.ghosts = 0) {data : Int → Sparse.Cell α} {grain : Int → Nat} (hk : Known g data grain) {x y : Nat → Int} (hxy : Adjacent g x y)
    (hbig : 65536 ≤ grain (g.rawOffset y)) {s : Ids} (h : checkNeighbors g data (toId (grain (g.rawOffset y))) x = .ok s) : toId (grain (g.rawOffset y)) ∈ s := by
  obtain ⟨s', e, -, hm⟩ := checkNeighbors_spec hg h0 hk (toId (grain (g.rawOffset y))) x
  rw [h] at e; cases e
  rw [hm]
  refine ⟨y, hxy, ?_, rfl⟩
  have := toId_lt (grain (g.rawOffset y))
  omega

/-! ## Volumes and centroids -/

/-- Volume of grain `k`. -/
def vol (gs : Grains α) (k : Nat) : α := ((gs k).map Grain.volume).getD 0

/-- Component `j` of the first moment of grain `k`. -/
def mom (gs : Grains α) (k j : Nat) : α := ((gs k).map fun gr => gr.moment j).getD 0

omit [LinearOrder α] in
theorem vol_massAt (i : Nat) (v : α) (x : Nat → Int) (gs : Grains α) (k : Nat) : vol (massAt i v x gs) k = vol gs k + if k = i then v else 0 := by
  unfold vol massAt
  by_cases h : k = i
  · subst h
    cases e : gs k <;> simp [Grain.addMass, fresh]
  · simp [h]

omit [LinearOrder α] in
theorem mom_massAt (i : Nat) (v : α) (x : Nat → Int) (gs : Grains α) (k j : Nat) : mom (massAt i v x gs) k j = mom gs k j + if k = i then v * (x j : α) else 0 := by
  unfold mom massAt
  by_cases h : k = i
  · subst h
    cases e : gs k <;> simp [Grain.addMass, fresh]
  · simp [h]

omit [Field α] [LinearOrder α] in
theorem isSome_massAt [Field α] (i : Nat) (v : α) (x : Nat → Int) (gs : Grains α) (k : Nat) : (massAt i v x gs k).isSome ↔ (gs k).isSome ∨ k = i := by
  unfold massAt
  by_cases h : k = i <;> simp [h]

/-- Stored indices fit into 16 bits and occur once. -/
def Fits (c : Sparse.Cell α) : Prop := Sparse.Ok c ∧ ∀ e ∈ c, 0 ≤ e.1 ∧ e.1 < 65536

omit [Field α] [LinearOrder α] in
theorem toId_key {c : Sparse.Cell α} (hc : Fits c) {e : Int × α} (he : e ∈ c) : (toId e.1 : Int) = e.1 := by
  have := hc.2 e he
  unfold toId; omega

omit [LinearOrder α] in
/-- Every node adds the value of each grain. -/
theorem masses_spec {c : Sparse.Cell α} (hc : Fits c) (major : Nat) (x : Nat → Int) (gs : Grains α) (k : Nat) :
    vol (masses c major x gs) k = vol gs k + Sparse.get c k ∧ (∀ j, mom (masses c major x gs) k j = mom gs k j + Sparse.get c k * (x j : α)) ∧
      ((masses c major x gs k).isSome ↔ (gs k).isSome ∨ k = major ∨ (k : Int) ∈ Sparse.keys c) := by
  unfold masses
  have key : ∀ (L : List (Int × α)) (gs : Grains α), (∀ e ∈ L, e ∈ c) → (L.map Prod.fst).Nodup →
      vol (L.foldl (fun gs e => if toId e.1 = major then gs else massAt (toId e.1) (Sparse.get c (toId e.1)) x gs) gs) k =
        vol gs k + (if k ≠ major ∧ (k : Int) ∈ L.map Prod.fst then Sparse.get c k else 0) ∧
      (∀ j, mom (L.foldl (fun gs e => if toId e.1 = major then gs else massAt (toId e.1) (Sparse.get c (toId e.1)) x gs) gs) k j =
        mom gs k j + (if k ≠ major ∧ (k : Int) ∈ L.map Prod.fst then Sparse.get c k * (x j : α) else 0)) ∧
      ((L.foldl (fun gs e => if toId e.1 = major then gs else massAt (toId e.1) (Sparse.get c (toId e.1)) x gs) gs k).isSome ↔
        (gs k).isSome ∨ (k ≠ major ∧ (k : Int) ∈ L.map Prod.fst)) := by
    intro L
    induction L with
    | nil => intro gs _ _; simp
    | cons e L ih =>
      intro gs hL hn
      rw [List.map_cons, List.nodup_cons] at hn
      obtain ⟨i1, i2, i3⟩ := ih (if toId e.1 = major then gs else massAt (toId e.1) (Sparse.get c (toId e.1)) x gs) (fun e' h => hL e' (by simp [h])) hn.2
      rw [List.foldl_cons]
      have hkey := toId_key hc (hL e (by simp))
      by_cases hm : toId e.1 = major
      · rw [if_pos hm] at i1 i2 i3
        rw [if_pos hm]
        have hiff : (k ≠ major ∧ (k : Int) ∈ (e :: L).map Prod.fst) ↔ (k ≠ major ∧ (k : Int) ∈ L.map Prod.fst) := by
          rw [List.map_cons, List.mem_cons]
          constructor
          · rintro ⟨h1, h2 | h2⟩
            · exact absurd (by omega) h1
            · exact ⟨h1, h2⟩
          · rintro ⟨h1, h2⟩; exact ⟨h1, Or.inr h2⟩
        simp only [hiff]
        exact ⟨i1, i2, i3⟩
      · rw [if_neg hm] at i1 i2 i3
        rw [if_neg hm]
        by_cases hke : k = toId e.1
        · have hnot : (k : Int) ∉ L.map Prod.fst := by rw [hke, hkey]; exact hn.1
          have hyes : k ≠ major ∧ (k : Int) ∈ (e :: L).map Prod.fst := ⟨by rw [hke]; exact hm, by rw [List.map_cons, hke, hkey]; simp⟩
          have hno : ¬ (k ≠ major ∧ (k : Int) ∈ L.map Prod.fst) := fun h => hnot h.2
          simp only [if_neg hno] at i1 i2
          simp only [if_pos hyes]
          refine ⟨?_, fun j => ?_, ?_⟩
          · rw [i1, vol_massAt, if_pos hke, ← hke]; ring
          · rw [i2, mom_massAt, if_pos hke, ← hke]; ring
          · rw [i3, isSome_massAt]; tauto
        · have hiff : (k ≠ major ∧ (k : Int) ∈ (e :: L).map Prod.fst) ↔ (k ≠ major ∧ (k : Int) ∈ L.map Prod.fst) := by
            rw [List.map_cons, List.mem_cons]
            constructor
            · rintro ⟨h1, h2 | h2⟩
              · exact absurd (by omega) hke
              · exact ⟨h1, h2⟩
            · rintro ⟨h1, h2⟩; exact ⟨h1, Or.inr h2⟩
          simp only [hiff]
          refine ⟨?_, fun j => ?_, ?_⟩
          · rw [i1, vol_massAt, if_neg hke, add_zero]
          · rw [i2, mom_massAt, if_neg hke, add_zero]
          · rw [i3, isSome_massAt]; tauto
  obtain ⟨k1, k2, k3⟩ := key c (massAt major (Sparse.get c major) x gs) (fun _ h => h) hc.1
  have hcase : (k ≠ major ∧ (k : Int) ∈ c.map Prod.fst) ∨ k = major ∨ (k ≠ major ∧ (k : Int) ∉ Sparse.keys c) := by
    by_cases h1 : k = major
    · exact Or.inr (Or.inl h1)
    · by_cases h2 : (k : Int) ∈ c.map Prod.fst
      · exact Or.inl ⟨h1, h2⟩
      · exact Or.inr (Or.inr ⟨h1, h2⟩)
  refine ⟨?_, fun j => ?_, ?_⟩
  · rw [k1, vol_massAt]
    rcases hcase with h | h | h
    · rw [if_neg h.1, if_pos h, add_zero]
    · subst h; simp
    · rw [if_neg h.1, if_neg (fun hh => h.2 hh.2), Sparse.get_of_not_mem h.2, add_zero]
  · rw [k2, mom_massAt]
    rcases hcase with h | h | h
    · rw [if_neg h.1, if_pos h, add_zero]
    · subst h; simp
    · rw [if_neg h.1, if_neg (fun hh => h.2 hh.2), Sparse.get_of_not_mem h.2, zero_mul, add_zero]
  · rw [k3, isSome_massAt]
    unfold Sparse.keys
    by_cases h1 : k = major <;> simp [h1]

omit [LinearOrder α] in
theorem modify_keeps {i : Nat} {f : Grain α → Grain α} (hf : ∀ gr, (f gr).volume = gr.volume ∧ (f gr).moment = gr.moment) {gs gs' : Grains α} (h : modify i f gs = .ok gs') (k : Nat) :
    vol gs' k = vol gs k ∧ (∀ j, mom gs' k j = mom gs k j) ∧ ((gs' k).isSome ↔ (gs k).isSome) := by
  unfold modify at h
  cases e : gs i with
  | none => rw [e] at h; cases h
  | some gr =>
    rw [e] at h
    injection h with h
    subst h
    unfold vol mom
    by_cases hk : k = i
    · subst hk
      simp [e, hf gr]
    · simp [hk]

omit [Field α] [LinearOrder α] in
theorem addNeighbors_keeps (s : Ids) (gr : Grain α) : (s.foldl (fun gr i => gr.addNeighbor i) gr).volume = gr.volume ∧ (s.foldl (fun gr i => gr.addNeighbor i) gr).moment = gr.moment ∧
    (s.foldl (fun gr i => gr.addNeighbor i) gr).edges = gr.edges ∧ (s.foldl (fun gr i => gr.addNeighbor i) gr).faces = s.foldl (fun f i => insertId i f) gr.faces := by
  induction s generalizing gr with
  | nil => simp
  | cons i s ih => rw [List.foldl_cons, List.foldl_cons]; exact ih _

omit [LinearOrder α] in
theorem classify2_keeps {major : Nat} {s : Ids} {x : Nat → Int} {gs gs' : Grains α} (h : classify2 major s x gs = .ok gs') (k : Nat) :
    vol gs' k = vol gs k ∧ (∀ j, mom gs' k j = mom gs k j) ∧ ((gs' k).isSome ↔ (gs k).isSome) := by
  unfold classify2 at h
  split_ifs at h with h1 h2
  · exact modify_keeps (f := Grain.updateEdges s x) (fun _ => ⟨rfl, rfl⟩) h k
  · have key : ∀ (L : Ids) (gs gs' : Grains α), L.foldlM (fun gs j => modify j (Grain.updateVertices s) gs) gs = Outcome.ok gs' →
        vol gs' k = vol gs k ∧ (∀ j, mom gs' k j = mom gs k j) ∧ ((gs' k).isSome ↔ (gs k).isSome) := by
      intro L
      induction L with
      | nil => intro gs gs' h; injection h with h; subst h; simp
      | cons j L ih =>
        intro gs gs' h
        rw [List.foldlM_cons] at h
        cases e : modify j (Grain.updateVertices s) gs with
        | ok g1 =>
          rw [e, Outcome.bind_eq, Outcome.ok_bind] at h
          obtain ⟨a1, a2, a3⟩ := ih _ _ h
          obtain ⟨b1, b2, b3⟩ := modify_keeps (f := Grain.updateVertices s) (fun _ => ⟨rfl, rfl⟩) e k
          exact ⟨a1.trans b1, fun j => (a2 j).trans (b2 j), a3.trans b3⟩
        | ub => rw [e] at h; cases h
        | abort c => rw [e] at h; cases h
    exact key _ _ _ h
  · injection h with h; subst h; simp

omit [LinearOrder α] in
theorem classify3_keeps {major : Nat} {s : Ids} {x : Nat → Int} {gs gs' : Grains α} (h : classify3 major s x gs = .ok gs') (k : Nat) :
    vol gs' k = vol gs k ∧ (∀ j, mom gs' k j = mom gs k j) ∧ ((gs' k).isSome ↔ (gs k).isSome) := by
  unfold classify3 at h
  split_ifs at h with h1
  · cases e : modify major (Grain.updateEdges s x) gs with
    | ok g1 =>
      rw [e, Outcome.ok_bind] at h
      obtain ⟨b1, b2, b3⟩ := modify_keeps (f := Grain.updateEdges s x) (fun _ => ⟨rfl, rfl⟩) e k
      obtain ⟨a1, a2, a3⟩ := modify_keeps (fun gr => ⟨(addNeighbors_keeps s gr).1, (addNeighbors_keeps s gr).2.1⟩) h k
      exact ⟨a1.trans b1, fun j => (a2 j).trans (b2 j), a3.trans b3⟩
    | ub => rw [e] at h; cases h
    | abort c => rw [e] at h; cases h
  · injection h with h; subst h; simp

/-- What one node does, apart from edges and vertices. -/
theorem node_keeps {g : Shape} (h0 : g.ghosts = 0) {data : Int → Sparse.Cell α} {grain : Int → Nat} (hk : Known g data grain) {n : Nat} (hn : n < g.nodes.toNat) (hc : Fits (data n))
    {gs gs' : Grains α} (h : node g data gs n = .ok gs') (k : Nat) :
    vol gs' k = vol gs k + Sparse.get (data n) k ∧ (∀ j, mom gs' k j = mom gs k j + Sparse.get (data n) k * (g.position n j : α)) ∧
      ((gs' k).isSome ↔ (gs k).isSome ∨ k = toId (grain n) ∨ (k : Int) ∈ Sparse.keys (data n)) := by
  unfold node at h
  have hcn := Convert.cells_eq h0
  have hd : deref g data (g.atNode .serial n) = .ok (data n) := if_pos (show 0 ≤ (n : Int) ∧ (n : Int) < g.cells by omega)
  rw [hd, Outcome.ok_bind, hk n hn, Outcome.ok_bind] at h
  dsimp only at h
  obtain ⟨m1, m2, m3⟩ := masses_spec hc (toId (grain n)) (g.position n) gs k
  cases e : checkNeighbors g data (toId (grain n)) (g.position n) with
  | ok s =>
    rw [e, Outcome.ok_bind] at h
    have hkeep : vol gs' k = vol (masses (data n) (toId (grain n)) (g.position n) gs) k ∧ (∀ j, mom gs' k j = mom (masses (data n) (toId (grain n)) (g.position n) gs) k j) ∧
        ((gs' k).isSome ↔ (masses (data n) (toId (grain n)) (g.position n) gs k).isSome) := by
      split_ifs at h
      · exact classify2_keeps h k
      · exact classify3_keeps h k
    exact ⟨hkeep.1.trans m1, fun j => (hkeep.2.1 j).trans (m2 j), hkeep.2.2.trans m3⟩
  | ub => rw [e] at h; cases h
  | abort c => rw [e] at h; cases h

/-- **C46.** The volume of every grain is the sum of its field over the nodes, its first moment the sum of field times position; the grains are those that occur. -/
theorem volume_spec {g : Shape} (h0 : g.ghosts = 0) {data : Int → Sparse.Cell α} {grain : Int → Nat} (hk : Known g data grain) (hc : ∀ n : Nat, n < g.nodes.toNat → Fits (data n))
    {gs : Grains α} (h : collect g data = .ok gs) (k : Nat) :
    vol gs k = ∑ n ∈ Finset.range g.nodes.toNat, Sparse.get (data n) k ∧
      (∀ j, mom gs k j = ∑ n ∈ Finset.range g.nodes.toNat, Sparse.get (data n) k * (g.position n j : α)) ∧
      ((gs k).isSome ↔ ∃ n : Nat, n < g.nodes.toNat ∧ (k = toId (grain n) ∨ (k : Int) ∈ Sparse.keys (data n))) := by
  unfold collect at h
  have key : ∀ N : Nat, N ≤ g.nodes.toNat → ∀ gs, (List.range N).foldlM (node g data) (fun _ => none) = Outcome.ok gs →
      vol gs k = ∑ n ∈ Finset.range N, Sparse.get (data n) k ∧ (∀ j, mom gs k j = ∑ n ∈ Finset.range N, Sparse.get (data n) k * (g.position n j : α)) ∧
      ((gs k).isSome ↔ ∃ n : Nat, n < N ∧ (k = toId (grain n) ∨ (k : Int) ∈ Sparse.keys (data n))) := by
    intro N
    induction N with
    | zero =>
      intro _ gs h
      rw [List.range_zero, List.foldlM_nil] at h
      injection h with h
      subst h
      simp [vol, mom]
    | succ N ih =>
      intro hN gs h
      rw [List.range_succ, List.foldlM_append] at h
      cases e : (List.range N).foldlM (node g data) (fun _ => none) with
      | ok g1 =>
        rw [e, Outcome.bind_eq, Outcome.ok_bind, List.foldlM_cons] at h
        obtain ⟨i1, i2, i3⟩ := ih (by omega) g1 e
        cases e2 : node g data g1 N with
        | ok g2 =>
          rw [e2, Outcome.bind_eq, Outcome.ok_bind, List.foldlM_nil] at h
          injection h with h
          subst h
          obtain ⟨a1, a2, a3⟩ := node_keeps h0 hk (by omega) (hc N (by omega)) e2 k
          refine ⟨?_, fun j => ?_, ?_⟩
          · rw [a1, i1, Finset.sum_range_succ]
          · rw [a2, i2, Finset.sum_range_succ]
          · rw [a3, i3]
            constructor
            · rintro (⟨n, hn, h⟩ | h)
              · exact ⟨n, by omega, h⟩
              · exact ⟨N, by omega, h⟩
            · rintro ⟨n, hn, h⟩
              by_cases hnN : n = N
              · subst hnN; exact Or.inr h
              · exact Or.inl ⟨n, by omega, h⟩
        | ub => rw [e2] at h; cases h
        | abort c => rw [e2] at h; cases h
      | ub => rw [e] at h; cases h
      | abort c => rw [e] at h; cases h
  exact key _ (le_refl _) gs h

/-! ## Edges and faces in three dimensions -/

/-- Edges of grain `k`. -/
def edgesAt (gs : Grains α) (k : Nat) : List (Ids × List (Nat → Int)) := ((gs k).map Grain.edges).getD []

/-- Faces of grain `k`. -/
def facesAt (gs : Grains α) (k : Nat) : Ids := ((gs k).map Grain.faces).getD []

/-- Edges are pairs of faces, each with at least one point, each pair once; every face has an edge. -/
structure Good (edges : List (Ids × List (Nat → Int))) (faces : Ids) : Prop where
  once : (edges.map Prod.fst).Nodup
  pair : ∀ e ∈ edges, ∃ a b, a < b ∧ e.1 = [a, b] ∧ a ∈ faces ∧ b ∈ faces ∧ e.2 ≠ []
  asc : Asc faces
  onEdge : ∀ f ∈ faces, ∃ e ∈ edges, f ∈ e.1

omit [LinearOrder α] in
theorem shape_massAt (i : Nat) (v : α) (x : Nat → Int) (gs : Grains α) (k : Nat) : edgesAt (massAt i v x gs) k = edgesAt gs k ∧ facesAt (massAt i v x gs) k = facesAt gs k := by
  unfold edgesAt facesAt massAt
  by_cases h : k = i
  · subst h
    cases e : gs k <;> simp [Grain.addMass, fresh]
  · simp [h]

omit [LinearOrder α] in
theorem shape_masses (c : Sparse.Cell α) (major : Nat) (x : Nat → Int) (gs : Grains α) (k : Nat) :
    edgesAt (masses c major x gs) k = edgesAt gs k ∧ facesAt (masses c major x gs) k = facesAt gs k := by
  unfold masses
  have key : ∀ (L : List (Int × α)) (gs : Grains α),
      edgesAt (L.foldl (fun gs e => if toId e.1 = major then gs else massAt (toId e.1) (Sparse.get c (toId e.1)) x gs) gs) k = edgesAt gs k ∧
      facesAt (L.foldl (fun gs e => if toId e.1 = major then gs else massAt (toId e.1) (Sparse.get c (toId e.1)) x gs) gs) k = facesAt gs k := by
    intro L
    induction L with
    | nil => intro gs; exact ⟨rfl, rfl⟩
    | cons e L ih =>
      intro gs
      rw [List.foldl_cons]
      obtain ⟨i1, i2⟩ := ih (if toId e.1 = major then gs else massAt (toId e.1) (Sparse.get c (toId e.1)) x gs)
      rw [i1, i2]
      split_ifs
      · exact ⟨rfl, rfl⟩
      · exact shape_massAt _ _ _ _ _
  obtain ⟨k1, k2⟩ := key c (massAt major (Sparse.get c major) x gs)
  obtain ⟨s1, s2⟩ := shape_massAt major (Sparse.get c major) x gs k
  exact ⟨k1.trans s1, k2.trans s2⟩

omit [LinearOrder α] in
theorem masses_major (c : Sparse.Cell α) (major : Nat) (x : Nat → Int) (gs : Grains α) : (masses c major x gs major).isSome := by
  unfold masses
  have key : ∀ (L : List (Int × α)) (gs : Grains α), (gs major).isSome →
      (L.foldl (fun gs e => if toId e.1 = major then gs else massAt (toId e.1) (Sparse.get c (toId e.1)) x gs) gs major).isSome := by
    intro L
    induction L with
    | nil => intro gs h; exact h
    | cons e L ih =>
      intro gs h
      rw [List.foldl_cons]
      apply ih
      split_ifs
      · exact h
      · exact (isSome_massAt _ _ _ _ _).2 (Or.inl h)
  exact key c _ ((isSome_massAt _ _ _ _ _).2 (Or.inr rfl))

omit [Field α] [LinearOrder α] in
theorem modify_some {i : Nat} {f : Grain α → Grain α} {gs : Grains α} (h : (gs i).isSome) : ∃ gr, gs i = some gr ∧ modify i f gs = .ok fun k => if k = i then some (f gr) else gs k := by
  obtain ⟨gr, e⟩ := Option.isSome_iff_exists.1 h
  refine ⟨gr, e, ?_⟩
  unfold modify
  rw [e]

omit [Field α] [LinearOrder α] in
theorem classify3_ok {major : Nat} {s : Ids} {x : Nat → Int} {gs : Grains α} (h : (gs major).isSome) :
    ∃ gs', classify3 major s x gs = .ok gs' ∧
      (∀ k, edgesAt gs' k = if k = major ∧ s.length = 2 then pushEdge s x (edgesAt gs k) else edgesAt gs k) ∧
      ∀ k, facesAt gs' k = if k = major ∧ s.length = 2 then s.foldl (fun f i => insertId i f) (facesAt gs k) else facesAt gs k := by
  unfold classify3
  by_cases hs : s.length = 2
  · rw [if_pos hs]
    obtain ⟨gr, e, e1⟩ := modify_some (f := Grain.updateEdges s x) h
    rw [e1, Outcome.ok_bind]
    obtain ⟨gr2, e2, e3⟩ := modify_some (i := major) (f := fun gr => s.foldl (fun gr i => gr.addNeighbor i) gr) (gs := fun k => if k = major then some (Grain.updateEdges s x gr) else gs k) (by simp)
    rw [e3]
    simp only [if_true, Option.some.injEq] at e2
    subst e2
    refine ⟨_, rfl, fun k => ?_, fun k => ?_⟩
    · unfold edgesAt
      by_cases hk : k = major
      · subst hk
        simp [hs, e, (addNeighbors_keeps s _).2.2.1, Grain.updateEdges]
      · simp [hk]
    · unfold facesAt
      by_cases hk : k = major
      · subst hk
        simp [hs, e, (addNeighbors_keeps s _).2.2.2, Grain.updateEdges]
      · simp [hk]
  · rw [if_neg hs]
    exact ⟨gs, rfl, fun k => by simp [hs], fun k => by simp [hs]⟩

omit [Field α] [LinearOrder α] in
theorem keys_pushEdge (e0 : Ids) (x : Nat → Int) (es : List (Ids × List (Nat → Int))) :
    (pushEdge e0 x es).map Prod.fst = if e0 ∈ es.map Prod.fst then es.map Prod.fst else es.map Prod.fst ++ [e0] := by
  induction es with
  | nil => simp [pushEdge]
  | cons a es ih =>
    rw [pushEdge]
    by_cases h : a.1 = e0
    · rw [if_pos h, List.map_cons, List.map_cons, if_pos (by simp [h])]
    · rw [if_neg h, List.map_cons, ih, List.map_cons]
      have : (e0 ∈ a.1 :: es.map Prod.fst) ↔ e0 ∈ es.map Prod.fst := by
        rw [List.mem_cons]; exact ⟨fun hh => hh.resolve_left fun e => h e.symm, Or.inr⟩
      simp only [this]
      split_ifs <;> rfl

omit [Field α] [LinearOrder α] in
theorem mem_pushEdge {e0 : Ids} {x : Nat → Int} {es : List (Ids × List (Nat → Int))} {e : Ids × List (Nat → Int)} (h : e ∈ pushEdge e0 x es) : e ∈ es ∨ (e.1 = e0 ∧ e.2 ≠ []) := by
  induction es with
  | nil =>
    rw [pushEdge, List.mem_singleton] at h
    subst h; exact Or.inr ⟨rfl, by simp⟩
  | cons a es ih =>
    rw [pushEdge] at h
    split_ifs at h with he
    · rcases List.mem_cons.1 h with rfl | h
      · exact Or.inr ⟨he, by simp⟩
      · exact Or.inl (by simp [h])
    · rcases List.mem_cons.1 h with rfl | h
      · exact Or.inl (by simp)
      · rcases ih h with h | h
        · exact Or.inl (by simp [h])
        · exact Or.inr h

omit [Field α] [LinearOrder α] in
theorem mem_inserts {s f : Ids} {k : Nat} : k ∈ s.foldl (fun f i => insertId i f) f ↔ k ∈ s ∨ k ∈ f := by
  induction s generalizing f with
  | nil => simp
  | cons i s ih => rw [List.foldl_cons, ih, mem_insertId, List.mem_cons]; tauto

omit [Field α] [LinearOrder α] in
theorem asc_inserts {s f : Ids} (h : Asc f) : Asc (s.foldl (fun f i => insertId i f) f) := by
  induction s generalizing f with
  | nil => exact h
  | cons i s ih => rw [List.foldl_cons]; exact ih (asc_insertId h)

omit [Field α] [LinearOrder α] in
theorem good_push {es : List (Ids × List (Nat → Int))} {f s : Ids} (h : Good es f) (hs : Asc s) (h2 : s.length = 2) (x : Nat → Int) :
    Good (pushEdge s x es) (s.foldl (fun f i => insertId i f) f) := by
  refine ⟨?_, ?_, asc_inserts h.asc, ?_⟩
  · rw [keys_pushEdge]
    split_ifs with hm
    · exact h.once
    · exact List.nodup_append.2 ⟨h.once, by simp, fun a ha b hb => by rw [List.mem_singleton] at hb; subst hb; exact fun e => hm (e ▸ ha)⟩
  · intro e he
    rcases mem_pushEdge he with he | ⟨he1, he2⟩
    · obtain ⟨a, b, hab, e1, ha, hb, hp⟩ := h.pair e he
      exact ⟨a, b, hab, e1, mem_inserts.2 (Or.inr ha), mem_inserts.2 (Or.inr hb), hp⟩
    · match s, h2, hs with
      | [a, b], _, hs =>
        have hab : a < b := (List.pairwise_cons.1 hs).1 b (by simp)
        exact ⟨a, b, hab, he1, mem_inserts.2 (Or.inl (by simp)), mem_inserts.2 (Or.inl (by simp)), he2⟩
  · intro k hk
    rcases mem_inserts.1 hk with hk | hk
    · have : s ∈ (pushEdge s x es).map Prod.fst := by
        rw [keys_pushEdge]; split_ifs with hm
        · exact hm
        · simp
      obtain ⟨e, he, rfl⟩ := List.mem_map.1 this
      exact ⟨e, he, hk⟩
    · obtain ⟨e, he, hke⟩ := h.onEdge k hk
      have : e.1 ∈ (pushEdge s x es).map Prod.fst := by
        rw [keys_pushEdge]; split_ifs with hm
        · exact List.mem_map.2 ⟨e, he, rfl⟩
        · exact List.mem_append.2 (Or.inl (List.mem_map.2 ⟨e, he, rfl⟩))
      obtain ⟨e', he', h1⟩ := List.mem_map.1 this
      exact ⟨e', he', by rw [h1]; exact hke⟩

/-- Node `n` of grain `k` touches exactly the grains `a` and `b`. -/
def Touching (g : Shape) (grain : Int → Nat) (n k a b : Nat) : Prop :=
  toId (grain n) = k ∧ ∀ i, (i = a ∨ i = b) ↔ ∃ y, Adjacent g (g.position n) y ∧ grain (g.rawOffset y) ≠ k ∧ i = toId (grain (g.rawOffset y))

/-- **C46.** In three dimensions the loop over the nodes has no undefined behaviour, and the edges of a grain are the pairs of other grains that are the only ones touching one of its
nodes; its faces are the grains on its edges. -/
theorem collect3_spec {g : Shape} (hg : g.Wf) (h0 : g.ghosts = 0) (hd : g.dim ≠ 2) {data : Int → Sparse.Cell α} {grain : Int → Nat} (hk : Known g data grain) :
    ∃ gs, collect g data = .ok gs ∧ ∀ k, Good (edgesAt gs k) (facesAt gs k) ∧
      ∀ a b, a < b → ([a, b] ∈ (edgesAt gs k).map Prod.fst ↔ ∃ n : Nat, n < g.nodes.toNat ∧ Touching g grain n k a b) := by
  have hcn := Convert.cells_eq h0
  have key : ∀ N : Nat, N ≤ g.nodes.toNat → ∃ gs, (List.range N).foldlM (node g data) (fun _ => none) = Outcome.ok gs ∧ ∀ k, Good (edgesAt gs k) (facesAt gs k) ∧
      ∀ a b, a < b → ([a, b] ∈ (edgesAt gs k).map Prod.fst ↔ ∃ n : Nat, n < N ∧ Touching g grain n k a b) := by
    intro N
    induction N with
    | zero =>
      intro _
      refine ⟨_, rfl, fun k => ⟨⟨by simp [edgesAt], by simp [edgesAt], by simp [facesAt, Asc], by simp [facesAt]⟩, by simp [edgesAt]⟩⟩
    | succ N ih =>
      intro hN
      obtain ⟨g1, e1, h1⟩ := ih (by omega)
      obtain ⟨s, es, hs, hm⟩ := checkNeighbors_spec hg h0 hk (toId (grain N)) (g.position N)
      obtain ⟨g2, e2, c1, c2⟩ := classify3_ok (s := s) (x := g.position N) (masses_major (data N) (toId (grain N)) (g.position N) g1)
      have hnode : node g data g1 N = .ok g2 := by
        unfold node
        have hdr : deref g data (g.atNode .serial N) = .ok (data N) := if_pos (show 0 ≤ (N : Int) ∧ (N : Int) < g.cells by omega)
        rw [hdr, Outcome.ok_bind, hk N (by omega), Outcome.ok_bind]
        dsimp only
        rw [es, Outcome.ok_bind, if_neg hd, e2]
      refine ⟨g2, ?_, fun k => ?_⟩
      · rw [List.range_succ, List.foldlM_append, e1, Outcome.bind_eq, Outcome.ok_bind, List.foldlM_cons, hnode]
        rfl
      · obtain ⟨m1, m2⟩ := shape_masses (data N) (toId (grain N)) (g.position N) g1 k
        rw [c1 k, c2 k, m1, m2]
        obtain ⟨i1, i2⟩ := h1 k
        by_cases hc : k = toId (grain N) ∧ s.length = 2
        · rw [if_pos hc, if_pos hc]
          refine ⟨good_push i1 hs hc.2 _, fun a b hab => ?_⟩
          have hpair : Asc [a, b] := by simp [Asc, hab]
          have hS : s = [a, b] ↔ Touching g grain N k a b := by
            constructor
            · intro e
              refine ⟨hc.1.symm, fun i => ?_⟩
              have := hm i
              rw [e, ← hc.1] at this
              simpa using this
            · rintro ⟨-, h⟩
              apply asc_ext hs hpair
              intro i
              rw [hm i, ← hc.1, ← h i]
              simp
          have hmem : [a, b] ∈ (pushEdge s (g.position N) (edgesAt g1 k)).map Prod.fst ↔ [a, b] ∈ (edgesAt g1 k).map Prod.fst ∨ s = [a, b] := by
            rw [keys_pushEdge]
            split_ifs with hin
            · exact ⟨Or.inl, fun h => h.elim id fun e => e ▸ hin⟩
            · rw [List.mem_append, List.mem_singleton]; exact or_congr_right eq_comm
          rw [hmem, i2 a b hab, hS]
          constructor
          · rintro (⟨n, hn, h⟩ | h)
            · exact ⟨n, by omega, h⟩
            · exact ⟨N, by omega, h⟩
          · rintro ⟨n, hn, h⟩
            by_cases hnN : n = N
            · subst hnN; exact Or.inr h
            · exact Or.inl ⟨n, by omega, h⟩
        · rw [if_neg hc, if_neg hc]
          refine ⟨i1, fun a b hab => ?_⟩
          rw [i2 a b hab]
          constructor
          · rintro ⟨n, hn, h⟩; exact ⟨n, by omega, h⟩
          · rintro ⟨n, hn, h⟩
            by_cases hnN : n = N
            · subst hnN
              exfalso
              apply hc
              refine ⟨h.1.symm, ?_⟩
              have : s = [a, b] := by
                apply asc_ext hs (by simp [Asc, hab])
                intro i
                rw [hm i, h.1, ← h.2 i]
                simp
              rw [this]; rfl
            · exact ⟨n, by omega, h⟩
  exact key _ (le_refl _)

/-! ## The p-vector -/

/-- The number of edges with `f` on them. -/
def edgeCount (edges : List (Ids × List (Nat → Int))) (f : Nat) : Nat := (edges.filter fun e => f ∈ e.1).length

omit [Field α] [LinearOrder α] in
theorem edgesOf_eq {edges : List (Ids × List (Nat → Int))} (h : ∀ e ∈ edges, ∃ a b, a < b ∧ e.1 = [a, b]) (f : Nat) : edgesOf edges f = edgeCount edges f := by
  unfold edgesOf edgeCount
  have key : ∀ (L : List (Ids × List (Nat → Int))) (p : Nat), (∀ e ∈ L, ∃ a b, a < b ∧ e.1 = [a, b]) →
      L.foldl (fun p e => e.1.foldl (fun p i => if i = f then p + 1 else p) p) p = p + (L.filter fun e => f ∈ e.1).length := by
    intro L
    induction L with
    | nil => intro p _; simp
    | cons e L ih =>
      intro p hL
      obtain ⟨a, b, hab, he⟩ := hL e (by simp)
      rw [List.foldl_cons, ih _ fun e' h' => hL e' (by simp [h']), List.filter_cons]
      rw [he]
      simp only [List.foldl_cons, List.foldl_nil, List.mem_cons, List.not_mem_nil, or_false]
      by_cases h1 : a = f
      · have h2 : b ≠ f := by omega
        simp [h1, h2]; omega
      · by_cases h2 : b = f
        · simp [h1, h2]; omega
        · simp [h1, h2, Ne.symm h1, Ne.symm h2]
  have := key edges 0 h
  omega

omit [Field α] [LinearOrder α] in
theorem tally_length (v : List Nat) (p : Nat) : (tally v p).length = max v.length (p + 1) := by
  unfold tally
  rw [List.length_modify, List.length_append, List.length_replicate]
  omega

omit [Field α] [LinearOrder α] in
theorem tally_get (v : List Nat) (p q : Nat) : (tally v p).getD q 0 = v.getD q 0 + if q = p then 1 else 0 := by
  unfold tally
  rw [List.getD_eq_getElem?_getD, List.getElem?_modify, List.getD_eq_getElem?_getD]
  have hpad : (v ++ List.replicate (p + 1 - v.length) 0)[q]? = if q < v.length then v[q]? else if q < p + 1 then some 0 else none := by
    split_ifs with h1 h2
    · exact List.getElem?_append_left h1
    · rw [List.getElem?_append_right (by omega), List.getElem?_replicate, if_pos (by omega)]
    · rw [List.getElem?_append_right (by omega), List.getElem?_replicate, if_neg (by omega)]
  rw [hpad]
  by_cases hq : q = p
  · subst hq
    by_cases h1 : q < v.length
    · simp [h1]
    · simp [h1]
  · have hpq : ¬ p = q := fun e => hq e.symm
    by_cases h1 : q < v.length
    · simp [h1, hq, hpq]
    · by_cases h2 : q < p + 1 <;> simp [h1, h2, hq, hpq]

omit [Field α] [LinearOrder α] in
/-- `Σ w(p)·pvec[p]` over all entries. -/
theorem tally_sum (w : Nat → Nat) (v : List Nat) (p : Nat) (m : Nat) (hm : (tally v p).length ≤ m) :
    ∑ q ∈ Finset.range m, (tally v p).getD q 0 * w q = ∑ q ∈ Finset.range m, v.getD q 0 * w q + w p := by
  have hp : p ∈ Finset.range m := by rw [Finset.mem_range]; rw [tally_length] at hm; omega
  simp only [tally_get, add_mul, Finset.sum_add_distrib]
  congr 1
  rw [Finset.sum_eq_single p]
  · simp
  · intro q _ hq; simp [hq]
  · intro h; exact absurd hp h

omit [Field α] [LinearOrder α] in
theorem tallies (c : Nat → Nat) (faces : Ids) (v : List Nat) :
    (∀ q, (faces.foldl (fun pvec f => tally pvec (c f)) v).getD q 0 = v.getD q 0 + (faces.filter fun f => c f = q).length) ∧
    v.length ≤ (faces.foldl (fun pvec f => tally pvec (c f)) v).length ∧ (∀ f ∈ faces, c f < (faces.foldl (fun pvec f => tally pvec (c f)) v).length) := by
  induction faces generalizing v with
  | nil => simp
  | cons f faces ih =>
    obtain ⟨h1, h2, h3⟩ := ih (tally v (c f))
    rw [List.foldl_cons]
    rw [tally_length] at h2
    refine ⟨fun q => ?_, by omega, fun f' hf' => ?_⟩
    · rw [h1 q, tally_get, List.filter_cons]
      by_cases e : q = c f
      · subst e; simp; omega
      · have e' : ¬ c f = q := fun h => e h.symm
        simp [e, e']
    · rcases List.mem_cons.1 hf' with rfl | h
      · omega
      · exact h3 f' h

omit [Field α] [LinearOrder α] in
theorem sum_getD_eq (w : Nat → Nat) (v : List Nat) : ∑ q ∈ Finset.range v.length, v.getD q 0 * w q = (v.zipIdx.map fun e => e.1 * w e.2).sum := by
  induction v using List.reverseRecOn with
  | nil => simp
  | append_singleton v a ih =>
    rw [List.length_append, List.length_singleton, Finset.sum_range_succ, List.zipIdx_append, List.map_append, List.sum_append, ← ih]
    congr 1
    · apply Finset.sum_congr rfl
      intro q hq
      rw [Finset.mem_range] at hq
      rw [List.getD_eq_getElem?_getD, List.getElem?_append_left hq, List.getD_eq_getElem?_getD]
    · simp

omit [Field α] [LinearOrder α] in
/-- Adding up over the faces and over the entries of the vector of their numbers is the same. -/
theorem tallies_sum (w c : Nat → Nat) (faces : Ids) (v : List Nat) (m : Nat) (hm : (faces.foldl (fun pvec f => tally pvec (c f)) v).length ≤ m) :
    ∑ q ∈ Finset.range m, (faces.foldl (fun pvec f => tally pvec (c f)) v).getD q 0 * w q = ∑ q ∈ Finset.range m, v.getD q 0 * w q + (faces.map fun f => w (c f)).sum := by
  induction faces generalizing v with
  | nil => simp
  | cons f faces ih =>
    rw [List.foldl_cons] at hm ⊢
    rw [ih _ hm, tally_sum w v (c f) m, List.map_cons, List.sum_cons]
    · omega
    · exact (tallies c faces (tally v (c f))).2.1.trans hm

omit [Field α] [LinearOrder α] in
/-- Every edge is on two faces. -/
theorem double_count {edges : List (Ids × List (Nat → Int))} {faces : Ids} (hn : faces.Nodup) (h : ∀ e ∈ edges, ∃ a b, a < b ∧ e.1 = [a, b] ∧ a ∈ faces ∧ b ∈ faces) :
    (faces.map fun f => edgeCount edges f).sum = 2 * edges.length := by
  induction edges with
  | nil => simp [edgeCount]
  | cons e edges ih =>
    obtain ⟨a, b, hab, he, ha, hb⟩ := h e (by simp)
    have hstep : ∀ f, edgeCount (e :: edges) f = edgeCount edges f + ((if f = a then 1 else 0) + if f = b then 1 else 0) := by
      intro f
      unfold edgeCount
      rw [List.filter_cons, he]
      simp only [List.mem_cons, List.not_mem_nil, or_false]
      by_cases h1 : f = a
      · have h2 : f ≠ b := by omega
        simp [h1]; omega
      · by_cases h2 : f = b
        · simp [h2]; omega
        · simp [h1, h2]
    simp only [hstep]
    have hone : ∀ {x : Nat}, x ∈ faces → (faces.map fun f => if f = x then 1 else 0).sum = 1 := by
      intro x hx
      have : (faces.map fun f => if f = x then 1 else 0).sum = faces.count x := by
        clear hstep ih h ha hb hn hx
        induction faces with
        | nil => rfl
        | cons f faces ihf => rw [List.map_cons, List.sum_cons, ihf, List.count_cons]; by_cases e : f = x <;> simp [e]; omega
      rw [this]
      exact List.count_eq_one_of_mem hn hx
    rw [List.sum_map_add, List.sum_map_add, hone ha, hone hb, ih fun e' h' => h e' (by simp [h'])]
    rw [List.length_cons]; omega

omit [Field α] [LinearOrder α] in
/-- **C46.** The p-vector of a grain with edges: the assertion fails if some face has a single edge; otherwise entry `p` is the number of faces with `p` edges, their sum is the number
of faces, and `Σ p·pvec[p]` twice the number of edges. -/
theorem makePvector_spec {gr : Grain α} (hg : Good gr.edges gr.faces) (he : gr.edges ≠ []) :
    ((∃ f ∈ gr.faces, edgeCount gr.edges f = 1) → makePvector gr = .abort 134) ∧
    ((∀ f ∈ gr.faces, edgeCount gr.edges f ≠ 1) → ∃ pvec, makePvector gr = .ok (pvec, pvec.length) ∧
      (∀ p, pvec.getD p 0 = (gr.faces.filter fun f => edgeCount gr.edges f = p).length) ∧
      pvec.sum = gr.faces.length ∧ (pvec.zipIdx.map fun e => e.1 * e.2).sum = 2 * gr.edges.length) := by
  have hpair : ∀ e ∈ gr.edges, ∃ a b, a < b ∧ e.1 = [a, b] := fun e h => by obtain ⟨a, b, h1, h2, -⟩ := hg.pair e h; exact ⟨a, b, h1, h2⟩
  have hcount : ∀ f, edgesOf gr.edges f = edgeCount gr.edges f := edgesOf_eq hpair
  obtain ⟨t1, t2, t3⟩ := tallies (edgeCount gr.edges) gr.faces [0]
  have hmk : makePvector gr = (match (gr.faces.foldl (fun pvec f => tally pvec (edgeCount gr.edges f)) [0])[1]? with
      | none => .ub
      | some k => if k = 0 then .ok (gr.faces.foldl (fun pvec f => tally pvec (edgeCount gr.edges f)) [0], (gr.faces.foldl (fun pvec f => tally pvec (edgeCount gr.edges f)) [0]).length)
        else .abort 134) := by
    unfold makePvector
    rw [if_neg (by rw [List.length_eq_zero_iff]; exact he)]
    simp only [hcount]
    all_goals rfl
  generalize hP : gr.faces.foldl (fun pvec f => tally pvec (edgeCount gr.edges f)) [0] = P at hmk t1 t2 t3
  have hlen : 1 < P.length := by
    obtain ⟨e, hmem⟩ := List.exists_mem_of_ne_nil _ he
    obtain ⟨a, b, hab, e1, ha, -⟩ := hg.pair e hmem
    have hpos : 0 < edgeCount gr.edges a := by
      unfold edgeCount
      exact List.length_pos_of_mem (List.mem_filter.2 ⟨hmem, by simp [e1]⟩)
    have := t3 a ha
    omega
  have hget : P[1]? = some ((gr.faces.filter fun f => edgeCount gr.edges f = 1).length) := by
    have h1 := t1 1
    rw [List.getD_eq_getElem?_getD, List.getElem?_eq_getElem hlen] at h1
    rw [List.getElem?_eq_getElem hlen]
    simpa using h1
  rw [hmk, hget]
  constructor
  · rintro ⟨f, hf, h1⟩
    dsimp only
    rw [if_neg]
    have : 0 < (gr.faces.filter fun f => decide (edgeCount gr.edges f = 1)).length := List.length_pos_of_mem (List.mem_filter.2 ⟨hf, by simp [h1]⟩)
    omega
  · intro hno
    dsimp only
    have h0 : (gr.faces.filter fun f => decide (edgeCount gr.edges f = 1)).length = 0 := by
      rw [List.length_eq_zero_iff, List.filter_eq_nil_iff]
      intro f hf; simp [hno f hf]
    rw [if_pos h0]
    refine ⟨P, rfl, fun p => ?_, ?_, ?_⟩
    · rw [t1 p]
      cases p with
      | zero => simp
      | succ p => simp
    · have hs := tallies_sum (fun _ => 1) (edgeCount gr.edges) gr.faces [0] P.length (by rw [hP])
      rw [hP, sum_getD_eq] at hs
      have e1 : (P.zipIdx.map fun e => e.1 * 1).sum = P.sum := by
        simp only [mul_one]
        have : P.zipIdx.map (fun e => e.1) = P := List.zipIdx_map_fst 0 P
        rw [this]
      have e2 : ∑ q ∈ Finset.range P.length, [0].getD q 0 * 1 = 0 := by
        apply Finset.sum_eq_zero
        intro q _
        cases q <;> simp
      rw [e1, e2] at hs
      rw [hs]
      simp
    · have hs := tallies_sum (fun p => p) (edgeCount gr.edges) gr.faces [0] P.length (by rw [hP])
      rw [hP, sum_getD_eq] at hs
      have e2 : ∑ q ∈ Finset.range P.length, [0].getD q 0 * q = 0 := by
        apply Finset.sum_eq_zero
        intro q _
        cases q <;> simp
      rw [e2] at hs
      rw [hs, zero_add]
      exact double_count hg.asc.nodup fun e h => by obtain ⟨a, b, h1, h2, h3, h4, -⟩ := hg.pair e h; exact ⟨a, b, h1, h2, h3, h4⟩

end

end MMSP.Topology
