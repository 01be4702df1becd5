import Verif.Convert
import Verif.SparseProps
import Mathlib.Tactic.SplitIfs
/-!
# Property C39: the converters keep the microstructure
-/

namespace MMSP.Convert

open Sparse (keys Ok)

/-! ## Specification -/

/-- Number of nodes. -/
def size {D T : Type} (g : Grid D T) : Nat := g.shape.nodes.toNat

/-- `k` is the first position of the largest element. -/
def FirstMax {α : Type} [LinearOrder α] (v : List α) (k : Nat) : Prop :=
  ∃ m, v[k]? = some m ∧ (∀ a ∈ v, a ≤ m) ∧ ∀ j < k, ∀ a, v[j]? = some a → a < m

/-- The vector is 1 at `k` and 0 elsewhere. -/
def Indicator {α : Type} [Zero α] [One α] (v : List α) (n : Nat) (k : Int) : Prop :=
  v.length = n ∧ ∀ j < n, v[j]? = some (if (j : Int) = k then 1 else 0)

/-- The converted grid has the limits of the original, but default spacing and boundary conditions. -/
structure Default {D T U : Type} [One D] (g1 : Grid D T) (g2 : Grid D U) : Prop where
  dim : g2.shape.dim = g1.shape.dim
  lower : g2.shape.x0 = g1.shape.x0
  upper : g2.shape.x1 = g1.shape.x1
  ghosts : g2.shape.ghosts = 0
  dx : ∀ j, g2.dx j = 1
  bc : ∀ j, g2.shape.b0 j = .periodic ∧ g2.shape.b1 j = .periodic

/-! ## Loops -/

theorem cells_eq {g : Shape} (h : g.ghosts = 0) : g.cells = g.nodes := by
  simp [Shape.cells, Shape.nodes, Shape.sx, Shape.xx, Shape.s0, Shape.s1, h]

theorem deref_ok {T : Type} {g : Shape} (h : g.ghosts = 0) (data : Int → T) {i : Nat} (hi : i < g.nodes.toNat) :
    deref g data (g.atNode .serial i) = .ok (data i) := by
  unfold deref
  exact if_pos (by rw [cells_eq h]; show 0 ≤ (i : Int) ∧ (i : Int) < _; omega)

theorem at1_ok {D T : Type} {g1 : Grid D T} (h : g1.shape.ghosts = 0) {i : Nat} (hi : i < size g1) : at1 g1 i = .ok (g1.data i) := deref_ok h _ hi

theorem eachNode_eq {T : Type} {g2 : Shape} (h : g2.ghosts = 0) {n : Nat} (hn : n ≤ g2.nodes.toNat) {f : Nat → T → Outcome T} {out : Int → T} {v : Nat → T}
    (hf : ∀ i < n, f i (out i) = .ok (v i)) :
    ∃ data, eachNode n g2 f out = .ok data ∧ (∀ i < n, data (i : Nat) = v i) ∧ ∀ i, n ≤ i → data (i : Nat) = out i := by
  unfold eachNode
  induction n with
  | zero => exact ⟨out, rfl, by simp, fun _ _ => rfl⟩
  | succ n ih =>
    obtain ⟨data, h1, h2, h3⟩ := ih (by omega) fun i hi => hf i (by omega)
    rw [List.range_succ, List.foldlM_append, h1]
    simp only [Outcome.bind_eq, Outcome.ok_bind, List.foldlM_cons, List.foldlM_nil, Outcome.pure_eq]
    rw [deref_ok h _ (show n < g2.nodes.toNat by omega), Outcome.ok_bind, h3 n le_rfl, hf n (by omega), Outcome.ok_bind]
    have hs : store g2 data (g2.atNode .serial n) (v n) = .ok (Function.update data n (v n)) := by
      unfold store
      exact if_pos (by rw [cells_eq h]; show 0 ≤ (n : Int) ∧ (n : Int) < _; omega)
    rw [hs]
    refine ⟨_, rfl, fun i hi => ?_, fun i hi => ?_⟩
    · by_cases e : i = n
      · subst e; exact Function.update_self _ _ _
      · rw [Function.update_of_ne (by simpa using e)]; exact h2 i (by omega)
    · rw [Function.update_of_ne (by simp; omega)]; exact h3 i (by omega)

/-- The loop stops with undefined behaviour at node `k`. -/
theorem eachNode_ub {T : Type} {g2 : Shape} (h : g2.ghosts = 0) {n k : Nat} (hk : k < n) (hkn : k ≤ g2.nodes.toNat) {f : Nat → T → Outcome T} {out : Int → T} {v : Nat → T}
    (hf : ∀ i < k, f i (out i) = .ok (v i)) (hu : f k (out k) = .ub ∨ k = g2.nodes.toNat) : eachNode n g2 f out = .ub := by
  obtain ⟨data, h1, h2, h3⟩ := eachNode_eq h hkn hf
  unfold eachNode at *
  have e : n = k + (1 + (n - k - 1)) := by omega
  rw [e, List.range_add, List.foldlM_append, h1]
  simp only [Outcome.bind_eq, Outcome.ok_bind]
  rw [Nat.add_comm 1, List.range_succ_eq_map, List.map_cons, List.foldlM_cons]
  simp only [Nat.add_zero]
  by_cases hlt : k < g2.nodes.toNat
  · rw [deref_ok h _ hlt, Outcome.ok_bind, h3 k le_rfl]
    rcases hu with hu | hu
    · rw [hu]; rfl
    · omega
  · have : deref g2 data (g2.atNode .serial k) = .ub := by
      unfold deref
      exact if_neg (by rw [cells_eq h]; show ¬ (0 ≤ (k : Int) ∧ (k : Int) < _); omega)
    rw [this]; rfl

/-! ## Vectors -/

section
variable {α : Type}

theorem vecGet_ok {v : List α} {i : Nat} {a : α} (h : v[i]? = some a) : vecGet v (i : Int) = .ok a := by
  have hi : i < v.length := (List.getElem?_eq_some_iff.1 h).1
  unfold vecGet
  rw [if_pos (by omega), if_pos (by omega)]
  simp [h]

theorem vecSet_ok {v : List α} {i : Nat} (h : i < v.length) (a : α) : vecSet v (i : Int) a = .ok (v.set i a) := by
  unfold vecSet
  rw [if_pos (by omega), if_pos (by omega)]
  simp

theorem clear_eq [Zero α] {c : List α} {n : Nat} (h : c.length = n) : clear (n : Int) c = .ok (List.replicate n 0) := by
  have key : ∀ k ≤ n, (List.range k).foldlM (fun c j => vecSet c ((j : Nat) : Int) 0) c = .ok (List.replicate k 0 ++ c.drop k) := by
    intro k hk
    induction k with
    | zero => rfl
    | succ k ih =>
      rw [List.range_succ, List.foldlM_append, ih (by omega)]
      simp only [Outcome.bind_eq, Outcome.ok_bind, List.foldlM_cons, List.foldlM_nil, Outcome.pure_eq]
      rw [vecSet_ok (by simp; omega)]
      simp only [Outcome.ok_bind]
      congr 1
      rw [List.set_append_right _ _ (by simp), List.length_replicate, Nat.sub_self, List.replicate_succ', List.drop_eq_getElem_cons (show k < c.length by omega),
        List.set_cons_zero]
      simp
  unfold clear
  rw [Int.toNat_natCast, key n le_rfl, ← h, List.drop_length, List.append_nil]

theorem indicator_set [Zero α] [One α] {n k : Nat} (h : k < n) :
    Indicator ((List.replicate n (0 : α)).set k 1) n k := by
  refine ⟨by simp, fun j hj => ?_⟩
  rw [List.getElem?_set]
  by_cases e : k = j
  · subst e; simp [hj]
  · rw [if_neg e, if_neg (by omega)]; simp [hj]

/-- `PF2MC` picks the first maximum. -/
theorem dominant_spec [LinearOrder α] {v : List α} (hv : v ≠ []) : ∃ k : Nat, dominant (v.length : Int) v = .ok (k : Int) ∧ FirstMax v k := by
  obtain ⟨m0, hm0⟩ : ∃ a, v[0]? = some a := by
    cases v with
    | nil => exact absurd rfl hv
    | cons a v => exact ⟨a, rfl⟩
  have key : ∀ n ≤ v.length, ∃ (k : Nat) (m : α),
      (List.range n).foldlM (fun (a : Int × α) (j : Nat) => (vecGet v j).bind fun value => .ok (if value > a.2 then ((j : Int), value) else a)) (0, m0) = .ok ((k : Int), m) ∧
      v[k]? = some m ∧ (∀ j < n, ∀ a, v[j]? = some a → a ≤ m) ∧ ∀ j < k, ∀ a, v[j]? = some a → a < m := by
    intro n hn
    induction n with
    | zero => exact ⟨0, m0, rfl, hm0, by simp, by simp⟩
    | succ n ih =>
      obtain ⟨k, m, h1, h2, h3, h4⟩ := ih (by omega)
      rw [List.range_succ, List.foldlM_append, h1]
      simp only [Outcome.bind_eq, Outcome.ok_bind, List.foldlM_cons, List.foldlM_nil, Outcome.pure_eq]
      have hn' : v[n]? = some v[n] := List.getElem?_eq_getElem (by omega)
      rw [vecGet_ok hn', Outcome.ok_bind]
      simp only [Outcome.ok_bind]
      by_cases hg : v[n] > m
      · refine ⟨n, v[n], by rw [if_pos hg], hn', fun j hj a ha => ?_, fun j hj a ha => lt_of_le_of_lt (h3 j hj a ha) hg⟩
        by_cases e : j = n
        · subst e; rw [hn'] at ha; cases ha; exact le_rfl
        · exact le_of_lt (lt_of_le_of_lt (h3 j (by omega) a ha) hg)
      · refine ⟨k, m, by rw [if_neg hg], h2, fun j hj a ha => ?_, h4⟩
        by_cases e : j = n
        · subst e; rw [hn'] at ha; cases ha; exact not_lt.1 hg
        · exact h3 j (by omega) a ha
  obtain ⟨k, m, h1, h2, h3, h4⟩ := key v.length le_rfl
  refine ⟨k, ?_, m, h2, fun a ha => ?_, h4⟩
  · unfold dominant
    rw [show (0 : Int) = ((0 : Nat) : Int) from rfl, vecGet_ok hm0, Outcome.ok_bind, Int.toNat_natCast]
    exact (congrArg (fun o => Outcome.bind o _) h1).trans rfl
  · obtain ⟨j, hj, rfl⟩ := List.getElem_of_mem ha
    exact h3 j hj _ (List.getElem?_eq_getElem hj)

theorem firstMax_unique [LinearOrder α] {v : List α} {k l : Nat} (hk : FirstMax v k) (hl : FirstMax v l) : k = l := by
  obtain ⟨m, a1, a2, a3⟩ := hk
  obtain ⟨m', b1, b2, b3⟩ := hl
  have e : m = m' := le_antisymm (b2 _ (List.mem_of_getElem? a1)) (a2 _ (List.mem_of_getElem? b1))
  subst e
  rcases lt_trichotomy k l with h | h | h
  · exact absurd (b3 k h m a1) (lt_irrefl _)
  · exact h
  · exact absurd (a3 l h m b1) (lt_irrefl _)

theorem firstMax_indicator [LinearOrder α] [Zero α] [One α] (h01 : (0 : α) < 1) {v : List α} {n k : Nat} (h : Indicator v n k) (hk : k < n) : FirstMax v k := by
  refine ⟨1, by rw [h.2 k hk, if_pos rfl], fun a ha => ?_, fun j hj a ha => ?_⟩
  · obtain ⟨j, hj, rfl⟩ := List.getElem_of_mem ha
    have := h.2 j (by rw [← h.1]; exact hj)
    rw [List.getElem?_eq_getElem hj] at this
    injection this with this
    rw [this]
    split_ifs
    · exact le_rfl
    · exact le_of_lt h01
  · rw [h.2 j (by omega), if_neg (by omega)] at ha
    cases ha
    exact h01

end

/-! ## Largest id -/

theorem largest_ok {D : Type} {g1 : Grid D Int} (hg : g1.shape.ghosts = 0) :
    ∃ m, largest g1 = .ok m ∧ 0 ≤ m ∧ (∀ i < size g1, g1.data i ≤ m) ∧ (m = 0 ∨ ∃ i < size g1, g1.data (i : Nat) = m) := by
  unfold largest
  have key : ∀ n ≤ size g1, ∃ m, (List.range n).foldlM (fun fields (i : Nat) => (at1 g1 i).bind fun v => .ok (if v > fields then v else fields)) (0 : Int) = .ok m ∧
      0 ≤ m ∧ (∀ i < n, g1.data (i : Nat) ≤ m) ∧ (m = 0 ∨ ∃ i < n, g1.data (i : Nat) = m) := by
    intro n hn
    induction n with
    | zero => exact ⟨0, rfl, le_rfl, by simp, .inl rfl⟩
    | succ n ih =>
      obtain ⟨m, h1, h2, h3, h4⟩ := ih (by omega)
      rw [List.range_succ, List.foldlM_append, h1]
      simp only [Outcome.bind_eq, Outcome.ok_bind, List.foldlM_cons, List.foldlM_nil, Outcome.pure_eq]
      rw [at1_ok hg (by omega)]
      simp only [Outcome.ok_bind]
      by_cases hv : g1.data n > m
      · refine ⟨_, by rw [if_pos hv], by omega, fun i hi => ?_, .inr ⟨n, by omega, rfl⟩⟩
        by_cases e : i = n
        · subst e; exact le_rfl
        · have := h3 i (by omega); omega
      · refine ⟨_, by rw [if_neg hv], h2, fun i hi => ?_, ?_⟩
        · by_cases e : i = n
          · subst e; omega
          · exact h3 i (by omega)
        · rcases h4 with h4 | ⟨i, hi, h4⟩
          · exact .inl h4
          · exact .inr ⟨i, by omega, h4⟩
  exact key _ le_rfl

/-! ## Monte Carlo to phase field and back -/

section
variable {D α : Type} [One D]

/-- The common part of all converters. -/
theorem build_eq {T U : Type} (g1 : Grid D U) (fields : Int) (fresh : Int → T) {f : Nat → T → Outcome T} {v : Nat → T} (hf : ∀ i < size g1, f i (fresh i) = .ok (v i)) :
    ∃ g2, ((eachNode g1.shape.nodes.toNat (make (D := D) g1.shape.dim fields g1.shape.x0 g1.shape.x1 fresh).shape f
        (make (D := D) g1.shape.dim fields g1.shape.x0 g1.shape.x1 fresh).data).bind fun data =>
        Outcome.ok { make (D := D) g1.shape.dim fields g1.shape.x0 g1.shape.x1 fresh with data := data }) = .ok g2 ∧
      Default g1 g2 ∧ g2.fields = fields ∧ ∀ i < size g1, g2.data (i : Nat) = v i := by
  obtain ⟨data, d1, d2, -⟩ := eachNode_eq (g2 := (make (D := D) g1.shape.dim fields g1.shape.x0 g1.shape.x1 fresh).shape) rfl (n := g1.shape.nodes.toNat) le_rfl
    (f := f) (out := fresh) (v := v) hf
  refine ⟨{ make (D := D) g1.shape.dim fields g1.shape.x0 g1.shape.x1 fresh with data := data }, ?_, ⟨rfl, rfl, rfl, rfl, fun _ => rfl, fun _ => ⟨rfl, rfl⟩⟩, rfl, d2⟩
  exact (congrArg (fun o => Outcome.bind o _) d1).trans rfl

/-- **C39.** `MC2PF`: every node gets the vector that is 1 at its id and 0 elsewhere; there are as many fields as the largest id requires. -/
theorem mc2pf_spec [Zero α] [One α] {fresh : Int → Int → List α} (hfresh : ∀ f i, (fresh f i).length = f.toNat) {g1 : Grid D Int} (hg : g1.shape.ghosts = 0)
    (h : ∀ i < size g1, 0 ≤ g1.data (i : Nat) ∧ g1.data (i : Nat) < 2 ^ 31 - 1) :
    ∃ g2, mc2pf fresh g1 = .ok g2 ∧ Default g1 g2 ∧ 1 ≤ g2.fields ∧ (∀ i < size g1, g1.data (i : Nat) < g2.fields) ∧
      (size g1 ≠ 0 → ∃ i < size g1, g1.data (i : Nat) = g2.fields - 1) ∧
      ∀ i < size g1, Indicator (g2.data (i : Nat)) g2.fields.toNat (g1.data i) := by
  obtain ⟨m, h1, h2, h3, h4⟩ := largest_ok hg
  have hm : m + 1 < 2 ^ 31 := by
    rcases h4 with h4 | ⟨i, hi, h4⟩
    · omega
    · have := h i hi; omega
  unfold mc2pf plusOne
  rw [h1, Outcome.ok_bind, if_pos hm, Outcome.ok_bind]
  dsimp only
  obtain ⟨g2, d1, d2, d3, d4⟩ := build_eq g1 (m + 1) (fresh (m + 1))
    (f := fun i c => (clear (m + 1) c).bind fun c => (at1 g1 i).bind fun index => vecSet c index 1)
    (v := fun i => (List.replicate (m + 1).toNat (0 : α)).set (g1.data i).toNat 1) (by
      intro i hi
      obtain ⟨n, hn⟩ := Int.eq_ofNat_of_zero_le (show 0 ≤ m + 1 by omega)
      obtain ⟨k, hk⟩ := Int.eq_ofNat_of_zero_le (h i hi).1
      have := h3 i hi
      have hl := hfresh (m + 1) i
      rw [hn] at hl ⊢
      rw [clear_eq (by simpa using hl), Outcome.ok_bind, at1_ok hg hi, Outcome.ok_bind, hk, vecSet_ok (by simp; omega)]
      simp)
  refine ⟨g2, d1, d2, by omega, fun i hi => by have := h3 i hi; omega, ?_, ?_⟩
  · intro hs
    rcases h4 with h4 | ⟨i, hi, h4⟩
    · exact ⟨0, by omega, by have := h 0 (by omega); have := h3 0 (by omega); omega⟩
    · exact ⟨i, hi, by omega⟩
  · intro i hi
    rw [d4 i hi, d3]
    have := h i hi
    have := h3 i hi
    have e : g1.data i = ((g1.data i).toNat : Int) := by omega
    have hh := indicator_set (α := α) (n := (m + 1).toNat) (k := (g1.data i).toNat) (by omega)
    rwa [← e] at hh

/-- **C39.** A grid with a negative id makes `MC2PF` write before the start of a vector. -/
theorem mc2pf_negative [Zero α] [One α] {fresh : Int → Int → List α} (hfresh : ∀ f i, (fresh f i).length = f.toNat) {g1 : Grid D Int} (hg : g1.shape.ghosts = 0)
    (h : ∀ i < size g1, g1.data (i : Nat) < 2 ^ 31 - 1) (hneg : ∃ i < size g1, g1.data (i : Nat) < 0) : mc2pf fresh g1 = .ub := by
  obtain ⟨m, h1, h2, h3, h4⟩ := largest_ok hg
  have hm : m + 1 < 2 ^ 31 := by
    rcases h4 with h4 | ⟨i, hi, h4⟩
    · omega
    · have := h i hi; omega
  unfold mc2pf plusOne
  rw [h1, Outcome.ok_bind, if_pos hm, Outcome.ok_bind]
  dsimp only
  have hex : ∃ k, k < size g1 ∧ g1.data (k : Nat) < 0 := hneg
  classical
  have hk := Nat.find_spec hex
  have hmin : ∀ i < Nat.find hex, 0 ≤ g1.data (i : Nat) := by
    intro i hi
    have := Nat.find_min hex hi
    by_contra hc
    exact this ⟨by omega, by omega⟩
  generalize Nat.find hex = k at *
  obtain ⟨n, hn⟩ := Int.eq_ofNat_of_zero_le (show 0 ≤ m + 1 by omega)
  have hl := hfresh (m + 1)
  rw [hn] at hl ⊢
  refine (congrArg (fun o => Outcome.bind o _) (eachNode_ub (g2 := (make (D := D) g1.shape.dim (n : Int) g1.shape.x0 g1.shape.x1 (fresh n)).shape) (n := g1.shape.nodes.toNat) (k := k) rfl hk.1 (le_of_lt hk.1)
    (f := fun i c => (clear (n : Int) c).bind fun c => (at1 g1 i).bind fun index => vecSet c index 1) (out := fresh n)
    (v := fun i => (List.replicate n (0 : α)).set (g1.data i).toNat 1) ?_ (.inl ?_))).trans rfl
  · intro i hi
    have h0 := hmin i hi
    have := h3 i (by omega)
    obtain ⟨j, hj⟩ := Int.eq_ofNat_of_zero_le h0
    have hl' : (fresh (n : Int) i).length = n := by have := hl i; simpa using this
    show (clear _ (fresh (n : Int) i)).bind _ = _
    rw [clear_eq hl', Outcome.ok_bind, at1_ok hg (by omega), Outcome.ok_bind, hj, vecSet_ok (by simp; omega)]
    simp
  · have hl' : (fresh (n : Int) k).length = n := by have := hl k; simpa using this
    show (clear _ (fresh (n : Int) k)).bind _ = _
    rw [clear_eq hl', Outcome.ok_bind, at1_ok hg hk.1, Outcome.ok_bind]
    unfold vecSet
    rw [if_pos (by simp; omega), if_neg (by omega)]

/-- **C39.** `PF2MC`: every node gets the first of the indices with the largest value. -/
theorem pf2mc_spec [LinearOrder α] (fresh : Int → Int) {g1 : Grid D (List α)} (hg : g1.shape.ghosts = 0) (hf : 1 ≤ g1.fields)
    (h : ∀ i < size g1, ((g1.data (i : Nat)).length : Int) = g1.fields) :
    ∃ g2, pf2mc fresh g1 = .ok g2 ∧ Default g1 g2 ∧ g2.fields = 1 ∧ ∀ i < size g1, ∃ k : Nat, g2.data (i : Nat) = k ∧ FirstMax (g1.data i) k := by
  have hd : ∀ i, ∃ k : Nat, i < size g1 → dominant g1.fields (g1.data (i : Nat)) = .ok (k : Int) ∧ FirstMax (g1.data i) k := by
    intro i
    by_cases hi : i < size g1
    · obtain ⟨k, h1, h2⟩ := dominant_spec (v := g1.data i) (by intro e; have := h i hi; rw [e] at this; simp at this; omega)
      exact ⟨k, fun _ => ⟨by rw [← h i hi]; exact h1, h2⟩⟩
    · exact ⟨0, fun h => absurd h hi⟩
  obtain ⟨k, hk⟩ := Classical.axiomOfChoice hd
  obtain ⟨g2, d1, d2, d3, d4⟩ := build_eq g1 1 fresh (f := fun i _ => (at1 g1 i).bind fun c => dominant g1.fields c) (v := fun i => (k i : Int)) (by
      intro i hi
      rw [at1_ok hg hi, Outcome.ok_bind]; exact (hk i hi).1)
  exact ⟨g2, d1, d2, d3, fun i hi => ⟨k i, d4 i hi, (hk i hi).2⟩⟩

theorem size_eq {T U : Type} {g1 : Grid D T} {g2 : Grid D U} (h : Default g1 g2) : size g2 = size g1 := by
  unfold size Shape.nodes Shape.xx
  rw [h.dim, h.lower, h.upper]

/-- **C39.** Monte Carlo to phase field and back gives every node its id again. -/
theorem mc_pf_mc [LinearOrder α] [Zero α] [One α] (h01 : (0 : α) < 1) {fresh : Int → Int → List α} (hfresh : ∀ f i, (fresh f i).length = f.toNat) (fresh' : Int → Int)
    {g1 : Grid D Int} (hg : g1.shape.ghosts = 0) (h : ∀ i < size g1, 0 ≤ g1.data (i : Nat) ∧ g1.data (i : Nat) < 2 ^ 31 - 1) :
    ∃ g2 g3, mc2pf fresh g1 = .ok g2 ∧ pf2mc fresh' g2 = .ok g3 ∧ Default g1 g3 ∧ ∀ i < size g1, g3.data (i : Nat) = g1.data i := by
  obtain ⟨g2, a1, a2, a3, a4, a5, a6⟩ := mc2pf_spec hfresh hg h
  have hs := size_eq a2
  obtain ⟨g3, b1, b2, b3, b4⟩ := pf2mc_spec fresh' (g1 := g2) a2.ghosts a3 (by intro i hi; rw [(a6 i (by omega)).1]; omega)
  refine ⟨g2, g3, a1, b1, ⟨b2.dim.trans a2.dim, b2.lower.trans a2.lower, b2.upper.trans a2.upper, b2.ghosts, b2.dx, b2.bc⟩, fun i hi => ?_⟩
  obtain ⟨k, c1, c2⟩ := b4 i (by omega)
  have h0 := (h i hi).1
  have h1 := a4 i hi
  have hi' := a6 i hi
  obtain ⟨n, hn⟩ := Int.eq_ofNat_of_zero_le h0
  rw [hn] at hi' h1 ⊢
  rw [c1, firstMax_unique c2 (firstMax_indicator h01 hi' (by omega))]

end

end MMSP.Convert
