import Verif.Tsv
import Verif.StencilProps
import Verif.BufferProps
/-!
# Property C61: tables of tab-separated values
-/

namespace MMSP.Tsv

open FileIO (newline)
open Stencil (gridAt)

variable {T : Type}

/-! ## What a reader of the table sees -/

/-- Pieces of a text between the separators `b`. -/
def pieces (b : Byte) : List Byte → List (List Byte)
  | [] => [[]]
  | c :: s => if c = b then [] :: pieces b s else
    match pieces b s with
    | p :: ps => (c :: p) :: ps
    | [] => [[c]]

/-- Lines, each ended by a newline, of fields separated by tabs. -/
def table (text : List Byte) : List (List (List Byte)) := (pieces newline text).dropLast.map (pieces tab)

/-- A text that can stand in a field. -/
def Clean (t : List Byte) : Prop := tab ∉ t ∧ newline ∉ t

theorem pieces_ne (b : Byte) (s : List Byte) : pieces b s ≠ [] := by
  cases s with
  | nil => simp [pieces]
  | cons c s =>
    unfold pieces
    split
    · simp
    · split <;> simp

theorem pieces_append {b : Byte} {p : List Byte} (h : b ∉ p) (s : List Byte) : pieces b (p ++ b :: s) = p :: pieces b s := by
  induction p with
  | nil => simp [pieces]
  | cons c p ih =>
    rw [List.mem_cons, not_or] at h
    rw [List.cons_append, pieces, if_neg (Ne.symm h.1), ih h.2]

theorem pieces_single {b : Byte} {p : List Byte} (h : b ∉ p) : pieces b p = [p] := by
  induction p with
  | nil => rfl
  | cons c p ih =>
    rw [List.mem_cons, not_or] at h
    rw [pieces, if_neg (Ne.symm h.1), ih h.2]

theorem pieces_join {b : Byte} {t : List Byte} {ts : List (List Byte)} (h : ∀ p ∈ t :: ts, b ∉ p) :
    pieces b (t ++ ts.flatMap fun v => b :: v) = t :: ts := by
  induction ts generalizing t with
  | nil => rw [List.flatMap_nil, List.append_nil, pieces_single (h t (by simp))]
  | cons u ts ih =>
    rw [List.flatMap_cons, List.cons_append, pieces_append (h t (by simp)), ih fun p hp => h p (by simp [hp])]

/-- Coordinates of a point as they are in the table. -/
def coords (coord : Nat → Int → List Byte) (dim : Nat) (x : Nat → Int) : List (List Byte) := (List.range dim).map fun d => coord d (x d)

theorem row_eq (coord : Nat → Int → List Byte) {dim : Nat} (hd : 0 < dim) (x : Nat → Int) (vs : List (List Byte)) :
    ∃ t ts, coords coord dim x ++ vs = t :: ts ∧ row coord dim x vs = (t ++ ts.flatMap fun v => tab :: v) ++ [newline] := by
  obtain ⟨k, rfl⟩ : ∃ k, dim = k + 1 := ⟨dim - 1, by omega⟩
  refine ⟨coord 0 (x 0), (List.range' 1 k).map (fun d => coord d (x d)) ++ vs, ?_, ?_⟩
  · unfold coords
    rw [List.range_eq_range', List.range'_succ]
    rfl
  · unfold row
    rw [Nat.add_sub_cancel, List.flatMap_append, List.flatMap_map]
    simp only [List.append_assoc]

theorem row_table (coord : Nat → Int → List Byte) {dim : Nat} (hd : 0 < dim) {x : Nat → Int} {vs : List (List Byte)}
    (hc : ∀ p ∈ coords coord dim x ++ vs, Clean p) (rest : List Byte) :
    table (row coord dim x vs ++ rest) = (coords coord dim x ++ vs) :: table rest := by
  obtain ⟨t, ts, e1, e2⟩ := row_eq coord hd x vs
  rw [e1] at hc ⊢
  rw [e2]
  have hn : newline ∉ t ++ ts.flatMap fun v => tab :: v := by
    intro h
    rw [List.mem_append, List.mem_flatMap] at h
    rcases h with h | ⟨v, hv, h⟩
    · exact (hc t (by simp)).2 h
    · rw [List.mem_cons] at h
      rcases h with h | h
      · exact absurd h (by decide)
      · exact (hc v (by simp [hv])).2 h
  unfold table
  rw [List.append_assoc, List.singleton_append, pieces_append hn]
  rw [List.dropLast_cons_of_ne_nil (pieces_ne _ _), List.map_cons, pieces_join fun p hp => (hc p hp).1]

theorem table_nil : table [] = [] := rfl

/-! ## The table is complete -/

/-- C61: the table has one line per node, in node order, with the coordinates of the node followed by its values, and nothing else. -/
theorem convert_table {coord : Nat → Int → List Byte} {g : Shape} (hg : g.Wf) (h0 : g.ghosts = 0) {values : T → Outcome (List (List Byte))} {data : Int → T}
    {v : Nat → List (List Byte)} (hcoord : ∀ d k, d < g.dim → Clean (coord d k))
    (hv : ∀ n : Nat, (n : Int) < g.nodes → values (data n) = .ok (v n) ∧ ∀ p ∈ v n, Clean p) :
    ∃ text, convert coord g values data = .ok text ∧
      table text = (List.range g.nodes.toNat).map fun n : Nat => coords coord g.dim (g.position n) ++ v n := by
  have hcells : g.nodes = g.cells := by
    rw [Shape.nodes_eq hg, Shape.cells_eq hg]
    apply Finset.prod_congr rfl
    intro j _
    simp only [Shape.s1, Shape.s0, h0]
    ring
  have hclean : ∀ n : Nat, (n : Int) < g.nodes → ∀ p ∈ coords coord g.dim (g.position n) ++ v n, Clean p := by
    intro n hn p hp
    rw [List.mem_append] at hp
    rcases hp with hp | hp
    · unfold coords at hp
      obtain ⟨d, hd, rfl⟩ := List.mem_map.1 hp
      exact hcoord d _ (List.mem_range.1 hd)
    · exact (hv n hn).2 p hp
  have aux : ∀ k : Nat, (k : Int) ≤ g.nodes ∨ k = 0 → (List.range k).foldlM (fun (out : List Byte) (n : Nat) => do
      let c ← deref g data (g.atNode .serial n)
      let vs ← values c
      pure (out ++ row coord g.dim (g.position n) vs)) [] =
      Outcome.ok ((List.range k).flatMap fun n : Nat => row coord g.dim (g.position n) (v n)) := by
    intro k hk
    induction k with
    | zero => rfl
    | succ k ih =>
      have hk' : (k : Int) < g.nodes := by
        rcases hk with h | h
        · push_cast at h; omega
        · omega
      rw [List.range_succ, List.foldlM_append, ih (Or.inl hk'.le), List.flatMap_append]
      simp only [Outcome.bind_eq, Outcome.ok_bind, List.foldlM_cons, List.foldlM_nil, Outcome.pure_eq]
      have hd : deref g data (g.atNode .serial k) = .ok (data k) := by
        show deref g data (k : Int) = _
        unfold deref
        rw [if_pos (by omega)]
      rw [hd, Outcome.ok_bind, (hv k hk').1, Outcome.ok_bind, List.flatMap_singleton]
      rfl
  refine ⟨_, aux g.nodes.toNat (by omega), ?_⟩
  have tab : ∀ l : List Nat, (∀ n ∈ l, (n : Int) < g.nodes) →
      table (l.flatMap fun n : Nat => row coord g.dim (g.position n) (v n)) = l.map fun n : Nat => coords coord g.dim (g.position n) ++ v n := by
    intro l hl
    induction l with
    | nil => rfl
    | cons n l ih =>
      rw [List.flatMap_cons, row_table coord hg.dim_pos (hclean n (hl n (by simp))), ih fun m hm => hl m (by simp [hm]), List.map_cons]
  apply tab
  intro n hn
  rw [List.mem_range] at hn
  omega

/-- C61: looking a node up by its coordinates gives its values and no others, if different coordinates are printed differently. -/
theorem lookup {coord : Nat → Int → List Byte} {g : Shape} (hg : g.Wf) (h0 : g.ghosts = 0) {values : T → Outcome (List (List Byte))} {data : Int → T}
    {v : Nat → List (List Byte)} (hcoord : ∀ d k, d < g.dim → Clean (coord d k))
    (hv : ∀ n : Nat, (n : Int) < g.nodes → values (data n) = .ok (v n) ∧ ∀ p ∈ v n, Clean p)
    (hinj : ∀ d a b, d < g.dim → g.x0 d ≤ a → a < g.x1 d → g.x0 d ≤ b → b < g.x1 d → coord d a = coord d b → a = b)
    {x : Nat → Int} (hx : g.IsNode x) :
    ∃ text c vs, convert coord g values data = .ok text ∧ gridAt .serial g data x = .ok c ∧ values c = .ok vs ∧
      (∃ r ∈ table text, r = coords coord g.dim x ++ vs) ∧
      ∀ r ∈ table text, r.take g.dim = coords coord g.dim x → r.drop g.dim = vs := by
  obtain ⟨text, ht, htab⟩ := convert_table hg h0 hcoord hv
  obtain ⟨i, ⟨hi0, hi1, hs⟩, huniq⟩ := Shape.position_surj hg hx
  obtain ⟨n, rfl⟩ := Int.eq_ofNat_of_zero_le hi0
  have hcoords : coords coord g.dim (g.position n) = coords coord g.dim x := by
    unfold coords
    apply List.map_congr_left
    intro d hd
    rw [hs d (List.mem_range.1 hd)]
  have hat : gridAt .serial g data x = .ok (data n) := by
    unfold gridAt
    have e : g.atVec .serial x = n := by
      have h1 := Shape.atNode_eq_atVec hg .serial (fun _ => h0) hi0 hi1
      rw [show g.atNode .serial (n : Int) = n from rfl] at h1
      rw [h1, Shape.atVec_eq_raw .serial (y := x) fun j hj => checkBoundary_inside _ _ _ _ _ _ (hx j hj),
        Shape.atVec_eq_raw .serial (y := g.position n) fun j hj => checkBoundary_inside _ _ _ _ _ _ (Shape.position_isNode hg hi0 hi1 j hj)]
      exact (rawOffset_congr fun j hj => hs j hj).symm
    rw [e]
    unfold deref
    have hcells : g.nodes = g.cells := by
      rw [Shape.nodes_eq hg, Shape.cells_eq hg]
      apply Finset.prod_congr rfl
      intro j _
      simp only [Shape.s1, Shape.s0, h0]
      ring
    rw [if_pos (by omega)]
  refine ⟨text, data n, v n, ht, hat, (hv n hi1).1, ⟨_, ?_, rfl⟩, ?_⟩
  · rw [htab, List.mem_map]
    exact ⟨n, List.mem_range.2 (by omega), by rw [hcoords]⟩
  · intro r hr htake
    rw [htab, List.mem_map] at hr
    obtain ⟨m, hm, rfl⟩ := hr
    rw [List.mem_range] at hm
    have hm1 : (m : Int) < g.nodes := by omega
    have hlen : ∀ y, (coords coord g.dim y).length = g.dim := by intro y; unfold coords; simp
    rw [List.take_left' (hlen _)] at htake
    rw [List.drop_left' (hlen _)]
    have hsame : g.SamePoint (g.position m) x := by
      intro d hd
      have hpos := Shape.position_isNode hg (Int.natCast_nonneg m) hm1 d hd
      have hxd := hx d hd
      apply hinj d _ _ hd hpos.1 hpos.2 hxd.1 hxd.2
      have := congrArg (fun l => l[d]?) htake
      unfold coords at this
      simpa [hd] using this
    have := huniq m (Int.natCast_nonneg m) hm1 hsame
    rw [Int.ofNat_inj.1 this]

/-! ## Values of the cells -/

/-- C61: a number cell is one field, a sparse cell two fields (index, value) per entry. -/
theorem scalar_sparse_values (fmt : T → List Byte) (fmtIndex : Int → List Byte) (a : T) (c : Sparse.Cell T) :
    scalarValues fmt a = .ok [fmt a] ∧ ∃ l, sparseValues fmtIndex fmt c = .ok l ∧ l.length = 2 * c.length ∧
      ∀ h (hh : h < c.length), l[2 * h]? = some (fmtIndex c[h].1) ∧ l[2 * h + 1]? = some (fmt c[h].2) := by
  refine ⟨rfl, _, rfl, ?_, ?_⟩
  · induction c with
    | nil => rfl
    | cons e c ih => rw [List.flatMap_cons, List.length_append, ih, List.length_cons, List.length_cons, List.length_cons, List.length_nil]; omega
  · induction c with
    | nil => intro h hh; simp at hh
    | cons e c ih =>
      intro h hh
      cases h with
      | zero => simp
      | succ h =>
        have := ih h (by simpa using hh)
        rw [List.flatMap_cons]
        simp only [List.cons_append, List.nil_append, show 2 * (h + 1) = 2 * h + 1 + 1 by omega, List.getElem?_cons_succ, List.getElem_cons_succ]
        exact this

/-- C61: a vector cell contributes its first `fields(GRID)` components, all of them if its length is `fields(GRID)`; a shorter cell stops the program. -/
theorem vector_values (fmt : T → List Byte) (fields : Nat) (c : List T) :
    vectorValues fmt fields c = if fields ≤ c.length then .ok ((c.take fields).map fmt) else .abort 134 := by
  unfold vectorValues
  induction fields with
  | zero => rw [if_pos (Nat.zero_le _)]; rfl
  | succ k ih =>
    rw [List.range_succ, List.mapM_append, ih]
    by_cases h : k + 1 ≤ c.length
    · rw [if_pos (by omega), if_pos h]
      simp only [Outcome.bind_eq, Outcome.ok_bind, List.mapM_cons, List.mapM_nil, Outcome.pure_eq, Stencil.elem,
        List.getElem?_eq_getElem (show k < c.length by omega)]
      congr 1
      rw [List.take_add_one, List.getElem?_eq_getElem (show k < c.length by omega), List.map_append]
      rfl
    · rw [if_neg h]
      by_cases h' : k ≤ c.length
      · rw [if_pos h']
        simp only [Outcome.bind_eq, Outcome.ok_bind, List.mapM_cons, List.mapM_nil, Outcome.pure_eq, Stencil.elem,
          List.getElem?_eq_none (show c.length ≤ k by omega), Outcome.abort_bind]
      · rw [if_neg h']
        rfl

/-- C61 (where it fails): a grid of `char` is written byte by byte, so a cell with the value 10 or 9 adds a line or a column. -/
theorem char_breaks_table :
    let g : Shape := ⟨1, fun _ => 0, fun _ => 1, fun _ => .neumann, fun _ => .neumann, 0⟩
    let coord : Nat → Int → List Byte := fun _ _ => [48]
    (∃ text, convert coord g (scalarValues fun b : Byte => [b]) (fun _ => 10) = .ok text ∧ (table text).length = 2) ∧
    (∃ text, convert coord g (scalarValues fun b : Byte => [b]) (fun _ => 9) = .ok text ∧ (table text).map List.length = [3]) ∧
    ∃ text, convert coord g (scalarValues fun b : Byte => [b]) (fun _ => 65) = .ok text ∧ table text = [[[48], [65]]] := by
  intro g coord
  exact ⟨⟨[48, 9, 10, 10], by decide +kernel, by decide +kernel⟩, ⟨[48, 9, 9, 10], by decide +kernel, by decide +kernel⟩,
    ⟨[48, 9, 65, 10], by decide +kernel, by decide +kernel⟩⟩

/-- Case of the hypotheses: a 2 × 2 plane of numbers printed in decimal. -/
example : let g : Shape := ⟨2, fun _ => 0, fun _ => 2, fun _ => .neumann, fun _ => .neumann, 0⟩
    (match convert (fun _ k => FileIO.intDec k) g (scalarValues FileIO.intDec) (fun p => 10 + p) with
      | .ok text => table text
      | _ => []) = [[[48], [48], [49, 48]], [[48], [49], [49, 49]], [[49], [48], [49, 50]], [[49], [49], [49, 51]]] := by decide +kernel

end MMSP.Tsv
