import Verif.GrainSize
import Verif.ConvertSparse
import Verif.DecompProps
import Verif.FileIOProps
import Mathlib.Algebra.BigOperators.Fin
/-!
# Property C40: grain sizes
-/

namespace MMSP.GrainSize

open Finset
open Sparse (keys Ok)

/-! ## Specification -/

/-- Number of nodes in domain `k` when node `i` is in domain `dom i`. -/
def sizeOf (n : Nat) (dom : Nat → Option Int) (k : Int) : Nat := ((range n).filter fun i => dom i = some k).card

/-- The table lists exactly the domains that occur, once each, with their sizes. -/
structure Table (s : Sparse.Cell Int) (n : Nat) (dom : Nat → Option Int) : Prop where
  once : Ok s
  listed : ∀ k, k ∈ keys s ↔ ∃ i < n, dom i = some k
  size : ∀ k, Sparse.get s k = sizeOf n dom k

/-! ## One rank -/

theorem sizeOf_succ (n : Nat) (dom : Nat → Option Int) (k : Int) : sizeOf (n + 1) dom k = sizeOf n dom k + if dom n = some k then 1 else 0 := by
  unfold sizeOf
  rw [range_add_one, filter_insert]
  split_ifs with h
  · rw [card_insert_of_notMem (by simp)]
  · rfl

/-- **C40.** One rank: the table lists every domain of the rank's nodes with its number of nodes. -/
theorem countNodes_spec {T : Type} {bd : Build} {g : Shape} {id : T → Outcome (Option Int)} {data : Int → T} {dom : Nat → Option Int}
    (h : ∀ i < g.nodes.toNat, 0 ≤ g.atNode bd i ∧ g.atNode bd i < g.cells ∧ id (data (g.atNode bd i)) = .ok (dom i)) :
    ∃ s, countNodes bd g id data = .ok s ∧ Table s g.nodes.toNat dom := by
  unfold countNodes
  generalize g.nodes.toNat = n at h ⊢
  induction n with
  | zero => exact ⟨[], rfl, by simp [Ok, keys], by simp [keys], fun k => by simp [sizeOf, Sparse.get_nil]⟩
  | succ n ih =>
    obtain ⟨s, h1, h2⟩ := ih fun i hi => h i (by omega)
    obtain ⟨a, b, e0⟩ := h n (by omega)
    rw [List.range_succ, List.foldlM_append, h1]
    have hd : deref g data (g.atNode bd n) = .ok (data (g.atNode bd n)) := if_pos ⟨a, b⟩
    simp only [Outcome.bind_eq, Outcome.ok_bind, List.foldlM_cons, List.foldlM_nil, Outcome.pure_eq, hd, e0]
    cases hdom : dom n with
    | none =>
      refine ⟨s, rfl, h2.once, fun k => ?_, fun k => ?_⟩
      · rw [h2.listed]
        constructor
        · rintro ⟨i, hi, e⟩; exact ⟨i, by omega, e⟩
        · rintro ⟨i, hi, e⟩
          refine ⟨i, ?_, e⟩
          by_contra hc
          have hin : i = n := by omega
          rw [hin, hdom] at e; cases e
      · rw [h2.size, sizeOf_succ, hdom, if_neg (by simp)]; rfl
    | some d =>
      refine ⟨_, rfl, h2.once.update _ _, fun k => ?_, fun k => ?_⟩
      · rw [Sparse.keys_update]
        have : (k ∈ if d ∈ keys s then keys s else keys s ++ [d]) ↔ k ∈ keys s ∨ k = d := by
          split_ifs with hm
          · constructor
            · exact .inl
            · rintro (h | rfl)
              · exact h
              · exact hm
          · simp
        rw [this, h2.listed]
        constructor
        · rintro (⟨i, hi, e⟩ | rfl)
          · exact ⟨i, by omega, e⟩
          · exact ⟨n, by omega, hdom⟩
        · rintro ⟨i, hi, e⟩
          by_cases hc : i = n
          · rw [hc, hdom] at e; exact .inr (Option.some.inj e).symm
          · exact .inl ⟨i, by omega, e⟩
      · rw [Sparse.get_update, sizeOf_succ, hdom]
        by_cases hk : k = d
        · subst hk; rw [if_pos rfl, if_pos rfl, h2.size]; push_cast; rfl
        · rw [if_neg hk, if_neg (by intro e; cases e; exact hk rfl), h2.size]; rfl

/-- The listed sizes add up to the number of nodes that were counted. -/
theorem table_total {s : Sparse.Cell Int} {n : Nat} {dom : Nat → Option Int} (h : Table s n dom) :
    (s.map Prod.snd).sum = ((range n).filter fun i => (dom i).isSome).card := by
  have hnd : (keys s).Nodup := h.once
  have e1 : s.map Prod.snd = (keys s).map fun k => ((sizeOf n dom k : Nat) : Int) := by
    rw [keys, List.map_map]
    apply List.map_congr_left
    intro e he
    rw [Function.comp_apply, ← h.size, Sparse.get_of_mem h.once he]
  have e2 : ((keys s).map fun k => ((sizeOf n dom k : Nat) : Int)).sum = ∑ k ∈ (keys s).toFinset, ((sizeOf n dom k : Nat) : Int) := (List.sum_toFinset _ hnd).symm
  rw [e1, e2]
  have : ((range n).filter fun i => (dom i).isSome) = (keys s).toFinset.biUnion fun k => (range n).filter fun i => dom i = some k := by
    ext i
    simp only [mem_filter, Finset.mem_range, mem_biUnion, List.mem_toFinset]
    constructor
    · rintro ⟨hi, hs⟩
      obtain ⟨k, hk⟩ := Option.isSome_iff_exists.1 hs
      exact ⟨k, (h.listed k).2 ⟨i, hi, hk⟩, hi, hk⟩
    · rintro ⟨k, _, hi, hk⟩; exact ⟨hi, by rw [hk]; rfl⟩
  rw [this, card_biUnion]
  · push_cast; rfl
  · intro a _ b _ hab
    rw [Function.onFun, Finset.disjoint_left]
    intro i ha hb
    rw [mem_filter] at ha hb
    exact hab (Option.some.inj (ha.2.symm.trans hb.2))

/-! ## Domains of cells -/

section
variable {α : Type} [LinearOrder α]

theorem vectorId_eq {c : List α} (hc : c ≠ []) : vectorId c = (Convert.dominant (c.length : Int) c).bind fun k => .ok (some k) := by
  obtain ⟨a, l, rfl⟩ := List.exists_cons_of_ne_nil hc
  unfold vectorId Convert.dominant
  have h0 : Convert.vecGet (a :: l) 0 = .ok a := Convert.vecGet_ok (i := 0) rfl
  have h0' : Convert.vecGet (a :: l) ((0 : Nat) : Int) = .ok a := h0
  rw [h0]
  simp only [Outcome.ok_bind, Int.toNat_natCast, List.length_cons, Nat.add_sub_cancel]
  rw [List.range_succ_eq_map, List.foldlM_cons, h0']
  simp only [Outcome.bind_eq, Outcome.ok_bind, lt_irrefl, gt_iff_lt, if_false, List.foldlM_map]
  push_cast
  generalize (List.foldlM _ _ _ : Outcome (Int × α)) = o
  cases o <;> rfl

/-- **C40.** The domain of a vector is the first index with the largest value. -/
theorem vectorId_spec {c : List α} (hc : c ≠ []) : ∃ k : Nat, vectorId c = .ok (some (k : Int)) ∧ Convert.FirstMax c k := by
  obtain ⟨k, h1, h2⟩ := Convert.dominant_spec hc
  exact ⟨k, by rw [vectorId_eq hc, h1]; rfl, h2⟩

/-- **C40.** The domain of a sparse cell is the index of its first largest positive entry, 0 if it has entries but none is positive; an empty cell is not counted. -/
theorem sparseId_spec [Zero α] (c : Sparse.Cell α) : (c = [] ∧ sparseId c = .ok none) ∨ ∃ k, sparseId c = .ok (some k) ∧ Convert.SparseMax c k := by
  unfold sparseId
  cases c with
  | nil => exact .inl ⟨rfl, rfl⟩
  | cons e c =>
    obtain ⟨k, h1, h2⟩ := Convert.dominantSparse_spec (e :: c)
    exact .inr ⟨k, by rw [if_pos (by simp), h1]; rfl, h2⟩

end

theorem node_bounds {bd : Build} {g : Shape} (hg : g.Wf) (hser : bd = .serial → g.ghosts = 0) {i : Nat} (hi : i < g.nodes.toNat) : 0 ≤ g.atNode bd i ∧ g.atNode bd i < g.cells := by
  have hn := Shape.position_isNode hg (i := (i : Int)) (by omega) (by omega)
  rw [Shape.atNode_eq_atVec hg bd hser (by omega) (by omega)]
  exact Shape.atVec_in_bounds hg bd (y := g.position (i : Int)) (fun j hj => checkBoundary_inside _ _ _ _ _ _ (hn j hj))
    fun j hj => by have := hn j hj; have := hg.ghosts; omega

/-- **C40.** Grids of `int`s: the domain of a node is its value. -/
theorem int_grains {bd : Build} {g : Shape} (hg : g.Wf) (hser : bd = .serial → g.ghosts = 0) (data : Int → Int) :
    ∃ s, countNodes bd g intId data = .ok s ∧ Table s g.nodes.toNat (fun i => some (data (g.atNode bd i))) ∧ (s.map Prod.snd).sum = g.nodes := by
  obtain ⟨s, h1, h2⟩ := countNodes_spec (bd := bd) (g := g) (id := intId) (data := data) (dom := fun i => some (data (g.atNode bd i)))
    fun i hi => ⟨(node_bounds hg hser hi).1, (node_bounds hg hser hi).2, rfl⟩
  refine ⟨s, h1, h2, ?_⟩
  have hn : 0 ≤ g.nodes := by
    rw [Shape.nodes_eq hg]
    exact Finset.prod_nonneg fun j hj => by have := hg.side j (by simpa using hj); omega
  rw [table_total h2]; simp [hn]

/-- **C40.** Grids of vectors: every node counts for its first largest component. -/
theorem vector_grains {α : Type} [LinearOrder α] {bd : Build} {g : Shape} (hg : g.Wf) (hser : bd = .serial → g.ghosts = 0) (data : Int → List α) (hdata : ∀ p, data p ≠ []) :
    ∃ (s : Sparse.Cell Int) (dom : Nat → Nat), (∀ i : Nat, Convert.FirstMax (data (g.atNode bd i)) (dom i)) ∧ countNodes bd g vectorId data = .ok s ∧
      Table s g.nodes.toNat (fun i => some (dom i : Int)) := by
  have h : ∀ i : Nat, ∃ k : Nat, vectorId (data (g.atNode bd i)) = .ok (some (k : Int)) ∧ Convert.FirstMax (data (g.atNode bd i)) k := fun i => vectorId_spec (hdata _)
  choose dom h1 h2 using h
  obtain ⟨s, e1, e2⟩ := countNodes_spec (bd := bd) (g := g) (id := vectorId) (data := data) (dom := fun i => some (dom i : Int))
    fun i hi => ⟨(node_bounds hg hser hi).1, (node_bounds hg hser hi).2, h1 i⟩
  exact ⟨s, dom, h2, e1, e2⟩

/-- **C40.** Grids of sparse cells: every node with an entry counts for its first largest positive entry, 0 if none is positive; nodes without entries are not counted. -/
theorem sparse_grains {α : Type} [LinearOrder α] [Zero α] {bd : Build} {g : Shape} (hg : g.Wf) (hser : bd = .serial → g.ghosts = 0) (data : Int → Sparse.Cell α) :
    ∃ (s : Sparse.Cell Int) (dom : Nat → Option Int), (∀ i : Nat, (data (g.atNode bd i) = [] ∧ dom i = none) ∨ ∃ k, dom i = some k ∧ Convert.SparseMax (data (g.atNode bd i)) k) ∧
      countNodes bd g sparseId data = .ok s ∧ Table s g.nodes.toNat dom := by
  have h : ∀ i : Nat, ∃ k : Option Int, sparseId (data (g.atNode bd i)) = .ok k ∧
      ((data (g.atNode bd i) = [] ∧ k = none) ∨ ∃ k', k = some k' ∧ Convert.SparseMax (data (g.atNode bd i)) k') := by
    intro i
    rcases sparseId_spec (data (g.atNode bd i)) with ⟨a, b⟩ | ⟨k, a, b⟩
    · exact ⟨none, b, .inl ⟨a, rfl⟩⟩
    · exact ⟨some k, a, .inr ⟨k, rfl, b⟩⟩
  choose dom h1 h2 using h
  obtain ⟨s, e1, e2⟩ := countNodes_spec (bd := bd) (g := g) (id := sparseId) (data := data) (dom := dom)
    fun i hi => ⟨(node_bounds hg hser hi).1, (node_bounds hg hser hi).2, h1 i⟩
  exact ⟨s, dom, h2, e1, e2⟩

/-- A line of `n` nodes without ghosts. -/
def line (n : Int) : Shape := ⟨1, fun _ => 0, fun _ => n, fun _ => .periodic, fun _ => .periodic, 0⟩

example : (line 5).Wf := ⟨by decide, fun _ _ => (by decide : (0 : Int) < 5), by decide⟩

example : countNodes .serial (line 5) intId (fun p => if p < 2 then 7 else -1) = .ok [(7, 2), (-1, 3)] := by decide +kernel

example : countNodes .serial (line 3) vectorId (fun p => if p < 2 then [1, 4, (4 : Int)] else [5, 4, 4]) = .ok [(1, 2), (0, 1)] := by decide +kernel

example : countNodes .serial (line 3) sparseId (fun p => if p < 2 then [(8, 1), (3, (4 : Int))] else []) = .ok [(3, 2)] := by decide +kernel

/-! ## All ranks -/

theorem fold_add (l : List (Sparse.Cell Int)) (g : Sparse.Cell Int) (hg : Ok g) (hl : ∀ s ∈ l, Ok s) :
    Ok (l.foldl Sparse.addEq g) ∧ (∀ k, Sparse.get (l.foldl Sparse.addEq g) k = Sparse.get g k + (l.map fun s => Sparse.get s k).sum) ∧
      ∀ k, k ∈ keys (l.foldl Sparse.addEq g) ↔ k ∈ keys g ∨ ∃ s ∈ l, k ∈ keys s := by
  induction l generalizing g with
  | nil => exact ⟨hg, by simp, by simp⟩
  | cons s l ih =>
    obtain ⟨a1, a2, a3⟩ := Sparse.addEq_correct hg (hl s (by simp))
    obtain ⟨b1, b2, b3⟩ := ih (Sparse.addEq g s) a2 fun t ht => hl t (by simp [ht])
    refine ⟨b1, fun k => ?_, fun k => ?_⟩
    · rw [List.foldl_cons, b2, a1, List.map_cons, List.sum_cons]; ring
    · rw [List.foldl_cons, b3, a3]
      simp only [List.mem_append, List.mem_filter, decide_eq_true_eq, List.mem_cons]
      constructor
      · rintro ((h | h) | ⟨t, ht, h⟩)
        · exact .inl h
        · exact .inr ⟨s, .inl rfl, h.1⟩
        · exact .inr ⟨t, .inr ht, h⟩
      · rintro (h | ⟨t, rfl | ht, h⟩)
        · exact .inl (.inl h)
        · by_cases hk : k ∈ keys g
          · exact .inl (.inl hk)
          · exact .inl (.inr ⟨h, hk⟩)
        · exact .inr ⟨t, ht, h⟩

theorem node_wf {g : Shape} (hd : 0 < g.dim) (hgg : 0 ≤ g.ghosts) (hle : ∀ j, j < g.dim → g.x0 j ≤ g.x1 j) {i : Nat} (hi : i < g.nodes.toNat) : g.Wf := by
  rcases FileIO.wf_or_empty (g := g) hd hgg with h | ⟨j, hj, he⟩
  · exact h
  · exfalso
    have e : g.x1 j - g.x0 j = 0 := by have := hle j hj; omega
    have hn : g.nodes = ∏ k ∈ range g.dim, (g.x1 k - g.x0 k) := by
      rw [← tailProd_zero, tailProd_step (by omega)]; unfold Shape.nodes Shape.xx; ring
    rw [prod_eq_zero (i := j) (by simpa using hj) e] at hn
    omega

open Decomp in
theorem rank_le {np d : Nat} {p g0 g1 : Nat → Int} (hp : ProcGrid np d p) (hg : ∀ j, j < d → g0 j ≤ g1 j) {ghosts : Int} (r : Fin np) :
    ∀ j, j < d → (rankShape d g0 g1 ghosts p (r.val : Int)).x0 j ≤ (rankShape d g0 g1 ghosts p (r.val : Int)).x1 j := by
  intro j hj
  have := lim_eq (rank := (r.val : Int)) hp hg (by omega) (by have := r.2; omega) hj
  show (lim d g0 g1 p (r.val : Int) j).1 ≤ (lim d g0 g1 p (r.val : Int) j).2
  rw [this]
  exact cut_mono (hg j hj) (hp.1 j hj) (by omega)

open Decomp in
/-- Nodes of the ranks correspond to nodes of the whole grid. -/
theorem nodes_of_ranks {np d : Nat} (hd : 0 < d) {p g0 g1 : Nat → Int} (hp : ProcGrid np d p) (hg : ∀ j, j < d → g0 j ≤ g1 j) {ghosts : Int} (hgh : 0 ≤ ghosts)
    (P : (Nat → Int) → Prop) [DecidablePred P] (hP : ∀ x y, (∀ j, j < d → x j = y j) → (P x ↔ P y)) (B0 B1 : Nat → BC) :
    ∑ r : Fin np, ((range (rankShape d g0 g1 ghosts p (r.val : Int)).nodes.toNat).filter fun i : Nat => P ((rankShape d g0 g1 ghosts p (r.val : Int)).position (i : Int))).card =
      ((range (FileIO.serialShape d g0 g1 B0 B1).nodes.toNat).filter fun i : Nat => P ((FileIO.serialShape d g0 g1 B0 B1).position (i : Int))).card := by
  have hwf : ∀ (g : Shape), g.dim = d → 0 ≤ g.ghosts → (∀ j, j < d → g.x0 j ≤ g.x1 j) → ∀ i : Nat, i < g.nodes.toNat → g.Wf := by
    rintro g rfl hgg hle i hi
    exact node_wf hd hgg hle hi
  have hle := rank_le (ghosts := ghosts) hp hg
  have hin : ∀ r : Fin np, ∀ i : Nat, i < (rankShape d g0 g1 ghosts p (r.val : Int)).nodes.toNat →
      InLocal d g0 g1 p (r.val : Int) ((rankShape d g0 g1 ghosts p (r.val : Int)).position (i : Int)) := by
    intro r i hi
    exact Shape.position_isNode (hwf _ rfl hgh (hle r) i hi) (by omega) (by omega)
  set G := FileIO.serialShape d g0 g1 B0 B1 with hG
  have hGwf : ∀ x, InGlobal d g0 g1 x → G.Wf := fun x hx => ⟨hd, fun j hj => lt_of_le_of_lt (hx j hj).1 (hx j hj).2, le_refl _⟩
  rw [← card_sigma]
  have hex : ∀ a : (_ : Fin np) × Nat, a ∈ (univ : Finset (Fin np)).sigma (fun r => (range (rankShape d g0 g1 ghosts p (r.val : Int)).nodes.toNat).filter fun i : Nat => P ((rankShape d g0 g1 ghosts p (r.val : Int)).position (i : Int))) →
      ∃ k : Nat, k < G.nodes.toNat ∧ ∀ j, j < d → G.position (k : Int) j = (rankShape d g0 g1 ghosts p (a.1.val : Int)).position (a.2 : Int) j := by
    rintro ⟨r, i⟩ ha
    simp only [mem_sigma, mem_univ, true_and, mem_filter, Finset.mem_range] at ha
    have hgl := local_in_global hp hg (r := (r.val : Int)) (by omega) (by have := r.2; omega) (hin r i ha.1)
    obtain ⟨k, ⟨k0, k1, k2⟩, -⟩ := Shape.position_surj (hGwf _ hgl) (x := (rankShape d g0 g1 ghosts p (r.val : Int)).position (i : Int)) hgl
    refine ⟨k.toNat, by omega, fun j hj => ?_⟩
    rw [show ((k.toNat : Nat) : Int) = k by omega]
    exact k2 j hj
  choose! f hf1 hf2 using hex
  refine card_bij (fun a _ => f a) ?_ ?_ ?_
  · rintro ⟨r, i⟩ ha
    rw [mem_filter, Finset.mem_range]
    refine ⟨hf1 _ ha, (hP _ _ (hf2 _ ha)).2 ?_⟩
    simp only [mem_sigma, mem_univ, true_and, mem_filter, Finset.mem_range] at ha
    exact ha.2
  · rintro ⟨r, i⟩ ha ⟨r', i'⟩ ha' he
    have h1 := hf2 _ ha
    have h2 := hf2 _ ha'
    dsimp only at he h1 h2
    rw [he] at h1
    have hsame : ∀ j, j < d → (rankShape d g0 g1 ghosts p (r.val : Int)).position (i : Int) j = (rankShape d g0 g1 ghosts p (r'.val : Int)).position (i' : Int) j :=
      fun j hj => (h1 j hj).symm.trans (h2 j hj)
    simp only [mem_sigma, mem_univ, true_and, mem_filter, Finset.mem_range] at ha ha'
    have l1 := hin r i ha.1
    have l2 := hin r' i' ha'.1
    have hgl := local_in_global hp hg (r := (r.val : Int)) (by omega) (by have := r.2; omega) l1
    obtain ⟨k, -, hk⟩ := partition hp hg hgl
    have e1 := hk r.val (by omega) (by have := r.2; omega) l1
    have e2 := hk r'.val (by omega) (by have := r'.2; omega) fun j hj => by rw [hsame j hj]; exact l2 j hj
    obtain rfl : r = r' := Fin.ext (by omega)
    have e3 := Shape.position_inj (hwf _ rfl hgh (hle r) i ha.1) (i := (i : Int)) (i' := (i' : Int)) (by omega) (by omega) (by omega) (by omega) hsame
    obtain rfl : i = i' := by omega
    rfl
  · intro k hk
    rw [mem_filter, Finset.mem_range] at hk
    have hGw : G.Wf := hwf G rfl (le_refl _) hg k hk.1
    have hgl : InGlobal d g0 g1 (G.position (k : Int)) := Shape.position_isNode hGw (by omega) (by omega)
    obtain ⟨r, ⟨r0, r1, hr⟩, -⟩ := partition hp hg hgl
    obtain ⟨r, rfl⟩ := Int.eq_ofNat_of_zero_le r0
    have hrn : r < np := by omega
    have hrw : (rankShape d g0 g1 ghosts p (r : Int)).Wf := ⟨hd, fun j hj => lt_of_le_of_lt (hr j hj).1 (hr j hj).2, hgh⟩
    obtain ⟨i, ⟨i0, i1, i2⟩, -⟩ := Shape.position_surj hrw (x := G.position (k : Int)) hr
    obtain ⟨i, rfl⟩ := Int.eq_ofNat_of_zero_le i0
    have hm : (⟨⟨r, hrn⟩, i⟩ : (_ : Fin np) × Nat) ∈ (univ : Finset (Fin np)).sigma (fun r => (range (rankShape d g0 g1 ghosts p (r.val : Int)).nodes.toNat).filter fun i : Nat => P ((rankShape d g0 g1 ghosts p (r.val : Int)).position (i : Int))) := by
      simp only [mem_sigma, mem_univ, true_and, mem_filter, Finset.mem_range]
      exact ⟨by omega, (hP _ _ i2).2 hk.2⟩
    refine ⟨_, hm, ?_⟩
    have h1 := hf1 _ hm
    have h2 := hf2 _ hm
    have := Shape.position_inj hGw (i := (f ⟨⟨r, hrn⟩, i⟩ : Nat)) (i' := (k : Int)) (by omega) (by omega) (by omega) (by omega) fun j hj => (h2 j hj).trans (i2 j hj)
    omega

/-! ### The message format of `sparse<int>` -/

/-- An `int` in memory. -/
def intCodec : Codec { i : Int // -2 ^ 31 ≤ i ∧ i < 2 ^ 31 } where
  width := 4
  enc := fun i => intBytes i.1
  dec := fun buf =>
    let n := ofLe buf
    let i : Int := if n < 2 ^ 31 then (n : Int) else (n : Int) - 2 ^ 32
    if h : -2 ^ 31 ≤ i ∧ i < 2 ^ 31 then ⟨i, h⟩ else ⟨0, by decide⟩
  enc_length := fun v => by simp [intBytes, leBytes]
  dec_enc := by
    rintro ⟨i, hi⟩
    have hn : ofLe (intBytes i) = (i % 2 ^ 32).toNat := by
      unfold intBytes
      simp only [leBytes, ofLe, UInt8.toNat_ofNat']
      omega
    have hdec : (if (i % 2 ^ 32).toNat < 2 ^ 31 then ((i % 2 ^ 32).toNat : Int) else ((i % 2 ^ 32).toNat : Int) - 2 ^ 32) = i := by
      split <;> omega
    simp only [hn, hdec]
    rw [dif_pos hi]

def IsInt (i : Int) : Prop := -2 ^ 31 ≤ i ∧ i < 2 ^ 31

instance (i : Int) : Decidable (IsInt i) := inferInstanceAs (Decidable (_ ∧ _))

def asInt (i : Int) : { i : Int // -2 ^ 31 ≤ i ∧ i < 2 ^ 31 } := if h : IsInt i then ⟨i, h⟩ else ⟨0, by decide⟩

def asItem (e : Int × Int) : RawItem { i : Int // -2 ^ 31 ≤ i ∧ i < 2 ^ 31 } 0 := (asInt e.1, ⟨[], rfl⟩, asInt e.2)

/-- `sparse<int>` in a buffer (C13), with entries as pairs; `item<int>` has no alignment bytes. -/
def tableCell : Cell (Sparse.Cell Int) where
  Valid := fun s => s.length < 2 ^ 31 ∧ ∀ e ∈ s, IsInt e.1 ∧ IsInt e.2
  size := fun s => (arrayCell (itemCodec intCodec 0 ⟨[], rfl⟩)).size (s.map asItem)
  enc := fun s => (arrayCell (itemCodec intCodec 0 ⟨[], rfl⟩)).enc (s.map asItem)
  dec := fun b => ((arrayCell (itemCodec intCodec 0 ⟨[], rfl⟩)).dec b).bind fun r => .ok (r.1.map fun e => (e.1.1, e.2.2.1), r.2)

theorem tableCell_roundTrips : RoundTrips tableCell := by
  rintro v ⟨h1, h2⟩
  obtain ⟨a, b⟩ := sparseCell_roundTrips intCodec 0 ⟨[], rfl⟩ (v.map asItem) (by rw [arrayCell]; simpa using h1)
  refine ⟨a, fun rest => ?_⟩
  show (((arrayCell (itemCodec intCodec 0 ⟨[], rfl⟩)).dec _).bind _ : Outcome _) = _
  rw [show tableCell.enc v = (arrayCell (itemCodec intCodec 0 ⟨[], rfl⟩)).enc (v.map asItem) from rfl, b rest, Outcome.ok_bind, List.map_map]
  have : v.map ((fun e : RawItem { i : Int // -2 ^ 31 ≤ i ∧ i < 2 ^ 31 } 0 => ((e.1.1 : Int), (e.2.2.1 : Int))) ∘ asItem) = v := by
    conv_rhs => rw [← List.map_id v]
    apply List.map_congr_left
    intro e he
    obtain ⟨x, y⟩ := h2 e he
    simp only [Function.comp_apply, asItem, asInt, dif_pos x, dif_pos y, id]
  rw [this]; rfl

theorem tableCell_size (s : Sparse.Cell Int) : tableCell.size s = 4 + s.length * 8 := by
  show 4 + (s.map asItem).length * (4 + 0 + 4) = _
  rw [List.length_map]

/-- Domain of a node of the whole grid, `dom` being given by coordinates. -/
def domAt (g : Shape) (dom : (Nat → Int) → Option Int) (i : Nat) : Option Int := dom (g.position i)

theorem rankFold_table {n d : Nat} (hd : 0 < d) {p g0 g1 : Nat → Int} (hp : Decomp.ProcGrid (n + 1) d p) (hg : ∀ j, j < d → g0 j ≤ g1 j) {ghosts : Int} (hgh : 0 ≤ ghosts)
    {dom : (Nat → Int) → Option Int} (hdom : ∀ x y, (∀ j, j < d → x j = y j) → dom x = dom y) (B0 B1 : Nat → BC) {tab : Fin (n + 1) → Sparse.Cell Int}
    (h : ∀ r : Fin (n + 1), Table (tab r) (Decomp.rankShape d g0 g1 ghosts p (r.val : Int)).nodes.toNat (domAt (Decomp.rankShape d g0 g1 ghosts p (r.val : Int)) dom)) :
    Table (Global.rankFold Sparse.addEq n tab) (FileIO.serialShape d g0 g1 B0 B1).nodes.toNat (domAt (FileIO.serialShape d g0 g1 B0 B1) dom) := by
  obtain ⟨a1, a2, a3⟩ := fold_add ((List.finRange n).map fun i => tab i.succ) (tab 0) (h 0).once (by
    intro s hs
    obtain ⟨i, -, rfl⟩ := List.mem_map.1 hs
    exact (h i.succ).once)
  have hsize : ∀ k, Sparse.get (Global.rankFold Sparse.addEq n tab) k = sizeOf (FileIO.serialShape d g0 g1 B0 B1).nodes.toNat (domAt (FileIO.serialShape d g0 g1 B0 B1) dom) k := by
    intro k
    show Sparse.get (((List.finRange n).map fun i => tab i.succ).foldl Sparse.addEq (tab 0)) k = _
    have e : ((((List.finRange n).map fun i => tab i.succ).map fun s => Sparse.get s k).sum) = ∑ i : Fin n, Sparse.get (tab i.succ) k := by
      rw [List.map_map, ← Fin.sum_univ_def]; rfl
    have e2 : ∀ r : Fin (n + 1), Sparse.get (tab r) k = _ := fun r => (h r).size k
    rw [a2, e, ← Fin.sum_univ_succ (fun r : Fin (n + 1) => Sparse.get (tab r) k), Finset.sum_congr rfl fun r _ => e2 r, ← Nat.cast_sum]
    congr 1
    exact nodes_of_ranks hd hp hg hgh (fun x => dom x = some k) (fun x y hxy => by rw [hdom x y hxy]) B0 B1
  refine ⟨a1, fun k => ?_, hsize⟩
  have hpos : ∀ (m : Nat) (f : Nat → Option Int), (∃ i < m, f i = some k) ↔ 0 < sizeOf m f k := by
    intro m f
    unfold sizeOf
    rw [card_pos]
    constructor
    · rintro ⟨i, hi, e⟩; exact ⟨i, by simp [hi, e]⟩
    · rintro ⟨i, hi⟩; exact ⟨i, by simpa using (mem_filter.1 hi).1, (mem_filter.1 hi).2⟩
  rw [hpos]
  have key : ∀ r : Fin (n + 1), k ∈ keys (tab r) ↔ 0 < Sparse.get (tab r) k := by
    intro r
    rw [(h r).listed, hpos, (h r).size]; omega
  have hnn : ∀ r : Fin (n + 1), 0 ≤ Sparse.get (tab r) k := fun r => by rw [(h r).size]; omega
  have hs := hsize k
  have e : Sparse.get (Global.rankFold Sparse.addEq n tab) k = ∑ r : Fin (n + 1), Sparse.get (tab r) k := by
    show Sparse.get (((List.finRange n).map fun i => tab i.succ).foldl Sparse.addEq (tab 0)) k = _
    rw [a2, Fin.sum_univ_succ, List.map_map, ← Fin.sum_univ_def]; rfl
  show k ∈ keys (((List.finRange n).map fun i => tab i.succ).foldl Sparse.addEq (tab 0)) ↔ _
  rw [a3]
  have : (0 < sizeOf (FileIO.serialShape d g0 g1 B0 B1).nodes.toNat (domAt (FileIO.serialShape d g0 g1 B0 B1) dom) k) ↔ 0 < ∑ r : Fin (n + 1), Sparse.get (tab r) k := by omega
  rw [this]
  constructor
  · intro h'
    have : ∃ r, k ∈ keys (tab r) := by
      rcases h' with h' | ⟨s, hs, h'⟩
      · exact ⟨0, h'⟩
      · obtain ⟨i, -, rfl⟩ := List.mem_map.1 hs; exact ⟨i.succ, h'⟩
    obtain ⟨r, hr⟩ := this
    exact lt_of_lt_of_le ((key r).1 hr) (single_le_sum (fun r _ => hnn r) (mem_univ r))
  · intro h'
    by_contra hc
    push Not at hc
    have hz : ∀ r : Fin (n + 1), Sparse.get (tab r) k = 0 := by
      intro r
      have : k ∉ keys (tab r) := by
        refine Fin.cases hc.1 (fun i => ?_) r
        exact hc.2 _ (List.mem_map.2 ⟨i, List.mem_finRange i, rfl⟩)
      have h1 := hnn r
      have h2 := mt (key r).2 this
      omega
    rw [Finset.sum_eq_zero fun r _ => hz r] at h'
    exact absurd h' (lt_irrefl _)

theorem table_length {s : Sparse.Cell Int} {n : Nat} {dom : Nat → Option Int} (h : Table s n dom) : s.length ≤ n := by
  have h1 : s.length = (keys s).toFinset.card := by rw [List.toFinset_card_of_nodup h.once, keys, List.length_map]
  rw [h1]
  have h2 : (keys s).toFinset.card ≤ ((range n).image fun i => (dom i).getD 0).card := by
    apply card_le_card
    intro k hk
    obtain ⟨i, hi, e⟩ := (h.listed k).1 (List.mem_toFinset.1 hk)
    exact mem_image.2 ⟨i, by simpa using hi, by rw [e]; rfl⟩
  exact h2.trans (card_image_le.trans (by rw [card_range]))

theorem table_valid {s : Sparse.Cell Int} {n : Nat} {dom : Nat → Option Int} (h : Table s n dom) (hint : ∀ i k, dom i = some k → IsInt k) (hn : n < 2 ^ 28) :
    tableCell.Valid s ∧ tableCell.size s < 2 ^ 31 := by
  have hl := table_length h
  refine ⟨⟨by omega, fun e he => ?_⟩, by rw [tableCell_size]; omega⟩
  obtain ⟨i, -, hi⟩ := (h.listed e.1).1 (List.mem_map.2 ⟨e, he, rfl⟩)
  refine ⟨hint i _ hi, ?_⟩
  rw [← Sparse.get_of_mem h.once he, h.size]
  have : sizeOf n dom e.1 ≤ n := (card_filter_le _ _).trans (by rw [card_range])
  unfold IsInt; omega

/-- **C40.** All ranks: however the messages of the final `global(…,"sum")` interleave, the call finishes, nothing goes wrong, and every rank ends with the table of
the whole grid – the same table a serial run counts, up to the order of its entries. -/
theorem grainsize_global {n d : Nat} (hd : 0 < d) {p g0 g1 : Nat → Int} (hp : Decomp.ProcGrid (n + 1) d p) (hg : ∀ j, j < d → g0 j ≤ g1 j) {ghosts : Int} (hgh : 0 ≤ ghosts)
    {dom : (Nat → Int) → Option Int} (hdom : ∀ x y, (∀ j, j < d → x j = y j) → dom x = dom y) (B0 B1 : Nat → BC)
    {T : Type} {id : T → Outcome (Option Int)} {data : Fin (n + 1) → Int → T}
    (hdata : ∀ r : Fin (n + 1), ∀ i < (Decomp.rankShape d g0 g1 ghosts p (r.val : Int)).nodes.toNat,
      id (data r ((Decomp.rankShape d g0 g1 ghosts p (r.val : Int)).atNode .mpi i)) = .ok (dom ((Decomp.rankShape d g0 g1 ghosts p (r.val : Int)).position i)))
    (hint : ∀ x k, dom x = some k → IsInt k) (hnodes : (FileIO.serialShape d g0 g1 B0 B1).nodes < 2 ^ 28) :
    ∃ tab : Fin (n + 1) → Sparse.Cell Int, (∀ r : Fin (n + 1), countNodes .mpi (Decomp.rankShape d g0 g1 ghosts p (r.val : Int)) id (data r) = .ok (tab r)) ∧
      ∃ total, Table total (FileIO.serialShape d g0 g1 B0 B1).nodes.toNat (domAt (FileIO.serialShape d g0 g1 B0 B1) dom) ∧
      ∃ w, ∀ m S, Comm.Run m (Comm.start (Global.program tableCell ops "sum" n tab)) S → m ≤ w ∧ (∀ r, S.proc r ≠ .fail) ∧ (∀ r b, S.proc r = .done b → b = total) ∧
        ((∃ v S', Comm.Strict v S S') ∨ S = Comm.final fun _ => total) := by
  have hle : ∀ r : Fin (n + 1), (Decomp.rankShape d g0 g1 ghosts p (r.val : Int)).nodes.toNat ≤ (FileIO.serialShape d g0 g1 B0 B1).nodes.toNat := by
    intro r
    have := nodes_of_ranks hd hp hg hgh (fun _ => True) (fun _ _ _ => Iff.rfl) B0 B1
    simp only [filter_true, card_range] at this
    rw [← this]
    exact single_le_sum (f := fun r : Fin (n + 1) => (Decomp.rankShape d g0 g1 ghosts p (r.val : Int)).nodes.toNat) (fun _ _ => Nat.zero_le _) (mem_univ r)
  have hcount : ∀ r : Fin (n + 1), ∃ s, countNodes .mpi (Decomp.rankShape d g0 g1 ghosts p (r.val : Int)) id (data r) = .ok s ∧
      Table s (Decomp.rankShape d g0 g1 ghosts p (r.val : Int)).nodes.toNat (domAt (Decomp.rankShape d g0 g1 ghosts p (r.val : Int)) dom) := by
    intro r
    refine countNodes_spec fun i hi => ?_
    have hw : (Decomp.rankShape d g0 g1 ghosts p (r.val : Int)).Wf := node_wf (g := Decomp.rankShape d g0 g1 ghosts p (r.val : Int)) hd hgh (rank_le hp hg r) hi
    have hb := node_bounds hw (bd := .mpi) (by simp) hi
    exact ⟨hb.1, hb.2, hdata r i hi⟩
  choose tab h1 h2 using hcount
  have htot := rankFold_table hd hp hg hgh hdom B0 B1 h2
  refine ⟨tab, h1, _, htot, ?_⟩
  have hfits : Global.Fits tableCell ops "sum" n tab :=
    ⟨tableCell_roundTrips, fun r => table_valid (h2 r) (fun i k e => hint _ k e) (by have := hle r; omega), table_valid htot (fun i k e => hint _ k e) (by omega)⟩
  exact Global.global_correct hfits

/-- Five nodes on two ranks. -/
example : Decomp.ProcGrid 2 1 (fun _ => 2) ∧ (FileIO.serialShape 1 (fun _ => 0) (fun _ => 5) (fun _ => .periodic) (fun _ => .periodic)).nodes < 2 ^ 28 ∧
    countNodes .mpi (Decomp.rankShape 1 (fun _ => 0) (fun _ => 5) 1 (fun _ => 2) 0) intId (fun p => p) = .ok [(1, 1), (2, 1), (3, 1)] := by
  refine ⟨⟨fun _ _ => (by decide : (0 : Int) < 2), by decide⟩, by decide, by decide +kernel⟩

end MMSP.GrainSize
