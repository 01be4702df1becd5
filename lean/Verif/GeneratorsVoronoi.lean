import Verif.GeneratorsOrder
/-!
# Properties C77 and C79: the tessellation of `generators.cpp`

What the serial tessellation puts into the cells, how that differs from a Voronoi tessellation, and what the exchange of seeds between ranks does.
-/

namespace MMSP.Generators

open MMSP.Stencil MMSP.Ghost MMSP.ParallelRun MMSP.Decomp
open MMSP.Tessellate (Seed State initial sqDist exactVoronoi exactVoronoi_nearest mapM_ok flat flat_length sendBuffer sendBuffer_spec allgatherv_spec andThen)
open MMSP.Conserve (Serial)

section
variable {T : Type} [Zero T] [One T]

omit [Zero T] [One T] in
theorem cells_plain {g : Shape} (hg : g.Wf) (h0 : g.ghosts = 0) : g.cells = g.nodes ∧ g.nodes = (box g.dim g.x0 g.x1).nodes ∧
    ∀ x, g.rawOffset x = (box g.dim g.x0 g.x1).rawOffset x := by
  have hS := box_serial hg.dim_pos hg.side
  obtain ⟨d, x0, x1, b0, b1, gh⟩ := g
  obtain rfl : gh = 0 := h0
  exact ⟨(show _ from Conserve.cells_eq_nodes hS : (box d x0 x1).cells = (box d x0 x1).nodes), rfl, fun _ => rfl⟩

/-- The loop that copies the result to the phase-field grid. -/
theorem copy_spec {g : Shape} (hg : g.Wf) (h0 : g.ghosts = 0) (st : State) (data : Int → Sparse.Cell T) :
    (List.range g.nodes.toNat).foldlM (fun data (n : Nat) =>
      (deref (box g.dim g.x0 g.x1) st.data ((box g.dim g.x0 g.x1).atNode .serial n)).bind fun v =>
      (deref g data (g.atNode .serial n)).bind fun c =>
      store g data (g.atNode .serial n) (Sparse.update c v.id fun _ => 1)) data =
    .ok fun p => if 0 ≤ p ∧ p < g.nodes then Sparse.update (data p) (st.data p).id fun _ => 1 else data p := by
  have hS := box_serial hg.dim_pos hg.side
  obtain ⟨hcells, hbn, -⟩ := cells_plain hg h0
  have hnn : 0 ≤ g.nodes := by
    rw [Shape.nodes_eq hg]; exact Finset.prod_nonneg fun k hk => by have := hg.side k (Finset.mem_range.mp hk); omega
  have key : ∀ n : Nat, (n : Int) ≤ g.nodes → (List.range n).foldlM (fun data (n : Nat) =>
      (deref (box g.dim g.x0 g.x1) st.data ((box g.dim g.x0 g.x1).atNode .serial n)).bind fun v =>
      (deref g data (g.atNode .serial n)).bind fun c =>
      store g data (g.atNode .serial n) (Sparse.update c v.id fun _ => 1)) data =
      .ok fun p => if 0 ≤ p ∧ p < n then Sparse.update (data p) (st.data p).id fun _ => 1 else data p := by
    intro n
    induction n with
    | zero =>
      intro _
      refine congrArg Outcome.ok (funext fun p => ?_)
      rw [if_neg (by omega)]
    | succ n ih =>
      intro hn
      rw [List.range_succ, List.foldlM_append, ih (by omega)]
      show Outcome.bind _ _ = _
      rw [Outcome.ok_bind, List.foldlM_cons]
      show Outcome.bind (Outcome.bind (deref (box g.dim g.x0 g.x1) st.data n) _) _ = _
      rw [deref_node hS _ (by omega) (by omega), Outcome.ok_bind]
      show Outcome.bind (Outcome.bind (deref g _ n) fun c => store g _ n _) _ = _
      unfold deref store
      rw [if_pos ⟨by omega, by omega⟩, Outcome.ok_bind, if_pos ⟨by omega, by omega⟩, Outcome.ok_bind]
      beta_reduce
      refine congrArg Outcome.ok (funext fun p => ?_)
      rw [Function.update_apply]
      by_cases hp : p = n
      · subst hp
        rw [if_pos rfl, if_neg (by omega), if_pos (by omega)]
      · rw [if_neg hp]
        by_cases hq : 0 ≤ p ∧ p < n
        · rw [if_pos hq, if_pos (by push_cast; omega)]
        · rw [if_neg hq, if_neg (by push_cast; omega)]
  have := key g.nodes.toNat (by omega)
  rwa [Int.toNat_of_nonneg hnn] at this

/-- **C77.** The serial tessellation gives every node the number of a seed that is nearest in the sum of the absolute differences of the coordinates. -/
theorem approximateVoronoi_nearest {g : Shape} (hg : g.Wf) (h0 : g.ghosts = 0) {seeds : List Seed} (hne : seeds ≠ []) (hin : ∀ s ∈ seeds, Tessellate.InBox g.dim g.x0 g.x1 s)
    (hsmall : ∑ d ∈ Finset.range g.dim, (g.x1 d - g.x0 d) < 2 ^ 31) {fuel : Nat} {data out : Int → Sparse.Cell T}
    (h : approximateVoronoi g seeds fuel data = .ok (some out)) {x : Nat → Int} (hx : g.IsNode x) :
    ∃ (i : Nat) (s : Seed), seeds[i]? = some s ∧ (∀ s' ∈ seeds, taxi g.dim x s.at ≤ taxi g.dim x s'.at) ∧
      cellAt g out x = Sparse.update (cellAt g data x) i fun _ => 1 := by
  unfold approximateVoronoi at h
  obtain ⟨st, h1, h⟩ := Tessellate.andThen_some h
  rw [copy_spec hg h0, Outcome.ok_bind] at h
  cases h
  have hS := box_serial hg.dim_pos hg.side
  obtain ⟨-, hbn, hraw⟩ := cells_plain hg h0
  obtain ⟨n0, n1, n2⟩ := Conserve.position_rawOffset (g := box g.dim g.x0 g.x1) hS hx
  obtain ⟨i, s, a, b, -, c⟩ := distances_nearest hg.side hne hin hsmall h1 _ n0 n1
  refine ⟨i, s, a, fun s' hs' => ?_, ?_⟩
  · have := c s' hs'
    have e1 := taxi_congr (dim := g.dim) (y := s.at) n2 fun _ _ => rfl
    have e2 := taxi_congr (dim := g.dim) (y := s'.at) n2 fun _ _ => rfl
    rwa [e1, e2] at this
  · unfold cellAt
    rw [hraw]
    beta_reduce
    rw [if_pos ⟨n0, by omega⟩, b]

/-- **C78.** Under the conditions of `distances_ok` the serial tessellation returns. -/
theorem approximateVoronoi_ok {g : Shape} (hg : g.Wf) (h0 : g.ghosts = 0) (hdim : g.dim = 2 ∨ g.dim = 3)
    (hf : ∃ a b, a < g.dim ∧ b < g.dim ∧ a ≠ b ∧ g.x0 a + 1 < g.x1 a ∧ g.x0 b + 1 < g.x1 b)
    (hsmall : ∑ d ∈ Finset.range g.dim, (g.x1 d - g.x0 d - 1) + ∑ d ∈ Finset.range g.dim, (g.x1 d - g.x0 d - 1) * (g.x1 d - g.x0 d - 1) < 2 ^ 31)
    {seeds : List Seed} (hne : seeds ≠ []) (hin : ∀ s ∈ seeds, Tessellate.InBox g.dim g.x0 g.x1 s) (hap : Apart g.dim g.x0 g.x1 seeds) (data : Int → Sparse.Cell T) :
    ∃ enough, ∀ fuel, enough ≤ fuel → ∃ out, approximateVoronoi g seeds fuel data = .ok (some out) := by
  obtain ⟨n, hn⟩ := distances_ok hdim hg.side hf hsmall hne hin hap
  refine ⟨n, fun fuel hfuel => ?_⟩
  obtain ⟨st, h⟩ := hn fuel hfuel
  refine ⟨fun p => if 0 ≤ p ∧ p < g.nodes then Sparse.update (data p) (st.data p).id fun _ => 1 else data p, ?_⟩
  unfold approximateVoronoi
  rw [h]
  show Outcome.bind (List.foldlM _ data _) _ = _
  rw [copy_spec hg h0, Outcome.ok_bind]
end

/-! ## Examples -/

/-- A square of six by six nodes. -/
def square : Shape := ⟨2, fun _ => 0, fun _ => 6, fun _ => .periodic, fun _ => .periodic, 0⟩

/-- Two seeds in it. -/
def pair : List Seed := [⟨3, 3, 0⟩, ⟨0, 5, 0⟩]

theorem pair_ok : square.Wf ∧ square.ghosts = 0 ∧ (∀ s ∈ pair, Tessellate.InBox square.dim square.x0 square.x1 s) ∧ Apart square.dim square.x0 square.x1 pair ∧
    (∃ a b, a < square.dim ∧ b < square.dim ∧ a ≠ b ∧ square.x0 a + 1 < square.x1 a ∧ square.x0 b + 1 < square.x1 b) ∧
    ∑ d ∈ Finset.range square.dim, (square.x1 d - square.x0 d - 1) + ∑ d ∈ Finset.range square.dim, (square.x1 d - square.x0 d - 1) * (square.x1 d - square.x0 d - 1) < 2 ^ 31 ∧
    ∑ d ∈ Finset.range square.dim, (square.x1 d - square.x0 d) < 2 ^ 31 := by
  have h2 : ∀ j, j < 2 → j = 0 ∨ j = 1 := by intro j hj; omega
  refine ⟨⟨by decide, fun j _ => show (0 : Int) < 6 by decide, le_refl _⟩, rfl, fun s hs j hj => ?_, ?_, ⟨0, 1, by decide, by decide, by decide, by decide, by decide⟩, by decide, by decide⟩
  · simp only [pair, List.mem_cons, List.not_mem_nil, or_false] at hs
    rcases hs with rfl | rfl <;> rcases h2 j hj with rfl | rfl <;> decide
  · refine List.pairwise_pair.2 fun hn => ?_
    have := hn 0 (by decide)
    revert this
    decide

/-- **C77, C78.** The tessellation of the square returns. -/
example : ∃ enough, ∀ fuel, enough ≤ fuel → ∃ out, approximateVoronoi square pair fuel (fun _ => ([] : Sparse.Cell Int)) = .ok (some out) :=
  approximateVoronoi_ok pair_ok.1 rfl (.inl rfl) pair_ok.2.2.2.2.1 pair_ok.2.2.2.2.2.1 (by decide) pair_ok.2.2.1 pair_ok.2.2.2.1 _

/-- **C77.** It is not the Voronoi tessellation in Euclidean distance, which `exact_voronoi` computes: at the origin of the square the first seed is nearest in Euclidean distance, and the
cell gets the second. -/
theorem not_euclidean {fuel : Nat} {out : Int → Sparse.Cell Int} (h : approximateVoronoi square pair fuel (fun _ => []) = .ok (some out)) :
    cellAt square out (fun _ => 0) = [(1, 1)] ∧ Tessellate.Nearest 2 pair (fun _ => 0) 0 := by
  refine ⟨?_, ⟨3, 3, 0⟩, rfl, ?_, ?_⟩
  · obtain ⟨i, s, a, b, c⟩ := approximateVoronoi_nearest pair_ok.1 rfl (by decide) pair_ok.2.2.1 pair_ok.2.2.2.2.2.2 h (x := fun _ => 0) (fun j _ => show (0 : Int) ≤ 0 ∧ (0 : Int) < 6 by decide)
    match i, a with
    | 0, a =>
      cases a
      exact absurd (b ⟨0, 5, 0⟩ (by decide)) (by decide)
    | 1, _ => exact c
  · intro j t hj
    match j, hj with
    | 0, hj => cases hj; decide
    | 1, hj => cases hj; decide
  · intro j t hj
    omega

/-- Seeds at the left border and in the middle of the square. -/
def pair' : List Seed := [⟨0, 0, 0⟩, ⟨3, 0, 0⟩]

theorem pair'_ok : (∀ s ∈ pair', Tessellate.InBox square.dim square.x0 square.x1 s) ∧ Apart square.dim square.x0 square.x1 pair' := by
  have h2 : ∀ j, j < 2 → j = 0 ∨ j = 1 := by intro j hj; omega
  refine ⟨fun s hs j hj => ?_, ?_⟩
  · simp only [pair', List.mem_cons, List.not_mem_nil, or_false] at hs
    rcases hs with rfl | rfl <;> rcases h2 j hj with rfl | rfl <;> decide
  · refine List.pairwise_pair.2 fun hn => ?_
    have := hn 0 (by decide)
    revert this
    decide

/-- **C77.** It does not respect the periodic boundaries: the node at the right border, a neighbour of the first seed across the border, gets the second. -/
theorem not_periodic {fuel : Nat} {out : Int → Sparse.Cell Int} (h : approximateVoronoi square pair' fuel (fun _ => []) = .ok (some out)) :
    cellAt square out (fun d => if d = 0 then 5 else 0) = [(1, 1)] ∧ checkBoundary .serial 6 (square.x0 0) (square.x1 0) (square.b0 0) (square.b1 0) = 0 := by
  refine ⟨?_, by decide⟩
  obtain ⟨i, s, a, b, c⟩ := approximateVoronoi_nearest pair_ok.1 rfl (by decide) pair'_ok.1 pair_ok.2.2.2.2.2.2 h (x := fun d => if d = 0 then 5 else 0) (fun j _ => by
    show (0 : Int) ≤ _ ∧ _ < (6 : Int)
    dsimp only
    split_ifs <;> decide)
  match i, a with
  | 0, a =>
    cases a
    exact absurd (b ⟨3, 0, 0⟩ (by decide)) (by decide)
  | 1, _ => exact c

/-- Both returns happen. -/
example : ∃ fuel out, approximateVoronoi square pair' fuel (fun _ => ([] : Sparse.Cell Int)) = .ok (some out) := by
  obtain ⟨n, h⟩ := approximateVoronoi_ok (T := Int) pair_ok.1 rfl (.inl rfl) pair_ok.2.2.2.2.1 pair_ok.2.2.2.2.2.1 (by decide) pair'_ok.1 pair'_ok.2 fun _ => []
  exact ⟨n, h n le_rfl⟩

/-! ## Exchange of seeds -/

/-- **C79.** After the exchange the list of rank `r` on rank `r` has its seeds twice; the other lists are right. -/
theorem seedswap_spec (locals : List (List Seed)) (r : Nat) : seedswap locals r = .ok (locals.modify r (fun l => l ++ l) ++ [[]]) := by
  unfold seedswap
  rw [mapM_ok sendBuffer (fun l => (flat l, 3 * l.length)) locals (fun l _ => sendBuffer_spec l), Outcome.ok_bind]
  have h1 : (locals.map fun l => (flat l, 3 * l.length)).map Prod.fst = locals.map flat := by simp
  have h2 : (locals.map fun l => (flat l, 3 * l.length)).map Prod.snd = (locals.map flat).map List.length := by
    simp [flat_length]
  dsimp only
  rw [h1, h2, allgatherv_spec _ _ (by simp)]
  rw [mapM_ok _ (fun i => (if i = r then locals.getD r [] else []) ++ locals.getD i []) (List.range locals.length)]
  · rw [Outcome.ok_bind]
    congr 2
    apply List.ext_getElem
    · simp
    · intro i h1 h2
      have hi : i < locals.length := by simpa using h1
      rw [List.getElem_map, List.getElem_range, List.getElem_modify]
      by_cases hc : i = r
      · subst hc; simp [List.getD, hi]
      · rw [if_neg hc, if_neg (Ne.symm hc)]
        simp [List.getD, hi]
  · intro i hi
    have hi' : i < locals.length := List.mem_range.1 hi
    have e : (locals.map flat).flatten.drop (Tessellate.offset ((locals.map flat).map List.length) i) =
        flat (locals.getD i []) ++ ((locals.map flat).drop (i + 1)).flatten := by
      rw [← Tessellate.flatten_take_length]
      conv_lhs => rw [← List.take_append_drop i (locals.map flat)]
      rw [List.flatten_append, List.take_append_of_le_length (by simp; omega), List.take_take, Nat.min_self, List.drop_left,
        List.drop_eq_getElem_cons (by simpa using hi')]
      simp [List.getD, hi']
    have e' : ((locals.map flat).map List.length).getD i 0 = 3 * (locals.getD i []).length := by
      simp [List.getD, hi', flat_length]
    rw [e, e', Tessellate.fromBuffer_spec]

example : seedswap [[⟨1, 2, 3⟩], [], [⟨4, 5, 6⟩]] 2 = .ok [[⟨1, 2, 3⟩], [], [⟨4, 5, 6⟩, ⟨4, 5, 6⟩], []] := seedswap_spec _ _

theorem modify_left {α : Type} (f : α → α) : ∀ (A B : List α) (r : Nat), r < A.length → (A ++ B).modify r f = A.modify r f ++ B := by
  intro A
  induction A with
  | nil => intro B r h; exact absurd h (Nat.not_lt_zero _)
  | cons a A ih =>
    intro B r h
    cases r with
    | zero => rfl
    | succ r => rw [List.cons_append, List.modify_succ_cons, ih B r (by simpa using h), List.modify_succ_cons, List.cons_append]

theorem modify_right {α : Type} (f : α → α) (B : List α) (r : Nat) : ∀ (A : List α), (A ++ B).modify (A.length + r) f = A ++ B.modify r f := by
  intro A
  induction A with
  | nil => simp
  | cons a A ih => rw [List.cons_append, List.length_cons, show A.length + 1 + r = A.length + r + 1 by omega, List.modify_succ_cons, ih, List.cons_append]

theorem doubled_length : ∀ (A : List (List Seed)) (r : Nat), (A.modify r fun l => l ++ l).flatten.length = A.flatten.length + (A.getD r []).length := by
  intro A
  induction A with
  | nil => intro r; cases r <;> rfl
  | cons l A ih =>
    intro r
    cases r with
    | zero => simp [List.modify_zero_cons]; omega
    | succ r => rw [List.modify_succ_cons, List.flatten_cons, List.length_append, ih, List.flatten_cons, List.length_append]; simp; omega

theorem doubled_mem {A : List (List Seed)} {r : Nat} {t : Seed} (h : t ∈ (A.modify r fun l => l ++ l).flatten) : t ∈ A.flatten := by
  induction A generalizing r with
  | nil => cases r <;> exact h
  | cons l A ih =>
    cases r with
    | zero =>
      rw [List.modify_zero_cons] at h
      simpa using h
    | succ r =>
      rw [List.modify_succ_cons, List.flatten_cons, List.mem_append] at h
      rw [List.flatten_cons, List.mem_append]
      exact h.imp_right ih

theorem nearest_append {d : Nat} {P Q : List Seed} {s : Seed} {x : Nat → Int} (hP : ∀ t ∈ P, sqDist d x s < sqDist d x t) (hQ : ∀ t ∈ Q, sqDist d x s ≤ sqDist d x t) :
    Tessellate.Nearest d (P ++ s :: Q) x P.length := by
  refine ⟨s, by simp, fun j t hj => ?_, fun j t hlt hj => ?_⟩
  · have := List.mem_of_getElem? hj
    rcases List.mem_append.1 this with h | h
    · exact (hP t h).le
    · rcases List.mem_cons.1 h with rfl | h
      · exact le_rfl
      · exact hQ t h
  · rw [List.getElem?_append_left hlt] at hj
    exact hP t (List.mem_of_getElem? hj)

/-- The number that rank `r` gives a seed that comes after the `before.length` ranks `before` and `first` other seeds of its own rank. -/
def number (before : List (List Seed)) (first : List Seed) (r : Nat) : Nat := before.flatten.length + (before.getD r []).length + first.length

/-- **C79.** Tessellation in parallel: a node nearer to the seed `s` than to any other gets, on rank `r`, a number that depends on `r`: one too large by the number of seeds
of rank `r` if rank `r` comes before the rank of `s`. -/
theorem tessellateMpi_number {T : Type} [Zero T] [One T] {w : World} {np : Nat} (h : w.Ok np) {r : Nat} (hr : r < np) {before after : List (List Seed)} {first last : List Seed} {s : Seed}
    (hbox : ∀ t ∈ (before ++ (first ++ s :: last) :: after).flatten, Tessellate.InBox w.d w.g0 w.g1 t)
    (hsmall : ∀ t ∈ (before ++ (first ++ s :: last) :: after).flatten, ∀ x, InGlobal w.d w.g0 w.g1 x → sqDist w.d x t < 2 ^ 31 - 1) {data : Int → Sparse.Cell T}
    (hempty : ∀ x, (w.shape r).IsNode x → cellAt (w.shape r) data x = []) :
    ∃ data', tessellateMpi (w.shape r) (before ++ (first ++ s :: last) :: after) r data = .ok data' ∧ ∀ x, (w.shape r).IsNode x →
      (∀ t ∈ before.flatten ++ first ++ last ++ after.flatten, sqDist w.d x s < sqDist w.d x t) →
      cellAt (w.shape r) data' x = [((number before first r : Int), (1 : T))] := by
  have hr' : IsRank np (r : Int) := ⟨by omega, by omega⟩
  have hfl : ((before ++ (first ++ s :: last) :: after).modify r (fun l => l ++ l) ++ [[]]).flatten =
      ((before ++ (first ++ s :: last) :: after).modify r (fun l => l ++ l)).flatten := by simp
  have hmem : ∀ t ∈ ((before ++ (first ++ s :: last) :: after).modify r (fun l => l ++ l) ++ [[]]).flatten, t ∈ (before ++ (first ++ s :: last) :: after).flatten :=
    fun t ht => doubled_mem (by rwa [hfl] at ht)
  have hne : ((before ++ (first ++ s :: last) :: after).modify r (fun l => l ++ l) ++ [[]]).flatten ≠ [] := by
    intro he
    have h1 := congrArg List.length he
    rw [hfl, doubled_length] at h1
    simp at h1
  obtain ⟨data', e, hv⟩ := exactVoronoi_nearest (T := T) h hr' (seeds := (before ++ (first ++ s :: last) :: after).modify r (fun l => l ++ l) ++ [[]])
    (fun t ht => hbox t (hmem t ht)) hne (fun t ht => hsmall t (hmem t ht)) data
  refine ⟨data', by unfold tessellateMpi; rw [seedswap_spec, Outcome.ok_bind]; exact e, fun x hx hs => ?_⟩
  obtain ⟨i, hi, hc⟩ := hv x hx
  have hB : ∀ t ∈ before.flatten, sqDist w.d x s < sqDist w.d x t := fun t ht => hs t (by rw [List.mem_append, List.mem_append, List.mem_append]; tauto)
  have hF : ∀ t ∈ first, sqDist w.d x s < sqDist w.d x t := fun t ht => hs t (by rw [List.mem_append, List.mem_append, List.mem_append]; tauto)
  have hL : ∀ t ∈ last, sqDist w.d x s < sqDist w.d x t := fun t ht => hs t (by rw [List.mem_append, List.mem_append, List.mem_append]; tauto)
  have hA : ∀ t ∈ after.flatten, sqDist w.d x s < sqDist w.d x t := fun t ht => hs t (by rw [List.mem_append, List.mem_append, List.mem_append]; tauto)
  rw [hfl] at hi
  have hnum : Tessellate.Nearest w.d ((before ++ (first ++ s :: last) :: after).modify r (fun l => l ++ l)).flatten x (number before first r) := by
    unfold number
    rcases Nat.lt_trichotomy r before.length with hlt | heq | hgt
    · rw [modify_left _ _ _ _ hlt]
      have e1 : (before.modify r (fun l => l ++ l) ++ (first ++ s :: last) :: after).flatten = ((before.modify r (fun l => l ++ l)).flatten ++ first) ++ s :: (last ++ after.flatten) := by simp
      have e2 : before.flatten.length + (before.getD r []).length + first.length = ((before.modify r (fun l => l ++ l)).flatten ++ first).length := by
        rw [List.length_append, doubled_length]
      rw [e1, e2]
      refine nearest_append (fun t ht => ?_) fun t ht => ?_
      · rcases List.mem_append.1 ht with ht | ht
        · exact hB t (doubled_mem ht)
        · exact hF t ht
      · rcases List.mem_append.1 ht with ht | ht
        · exact (hL t ht).le
        · exact (hA t ht).le
    · subst heq
      have e0 : (before ++ (first ++ s :: last) :: after).modify before.length (fun l => l ++ l) = before ++ ((first ++ s :: last) ++ (first ++ s :: last)) :: after := by
        exact modify_right _ _ 0 before
      have e1 : (before ++ ((first ++ s :: last) ++ (first ++ s :: last)) :: after).flatten = (before.flatten ++ first) ++ s :: (last ++ first ++ s :: last ++ after.flatten) := by simp
      have e2 : before.flatten.length + (before.getD before.length []).length + first.length = (before.flatten ++ first).length := by
        simp [List.getD]
      rw [e0, e1, e2]
      refine nearest_append (fun t ht => ?_) fun t ht => ?_
      · rcases List.mem_append.1 ht with ht | ht
        · exact hB t ht
        · exact hF t ht
      · rcases List.mem_append.1 ht with ht | ht
        · rcases List.mem_append.1 ht with ht | ht
          · rcases List.mem_append.1 ht with ht | ht
            · exact (hL t ht).le
            · exact (hF t ht).le
          · rcases List.mem_cons.1 ht with rfl | ht
            · exact le_rfl
            · exact (hL t ht).le
        · exact (hA t ht).le
    · obtain ⟨k, rfl⟩ : ∃ k, r = before.length + (k + 1) := ⟨r - before.length - 1, by omega⟩
      have e0 : (before ++ (first ++ s :: last) :: after).modify (before.length + (k + 1)) (fun l => l ++ l) = before ++ (first ++ s :: last) :: after.modify k (fun l => l ++ l) := by
        exact modify_right _ _ (k + 1) before
      have e1 : (before ++ (first ++ s :: last) :: after.modify k (fun l => l ++ l)).flatten = (before.flatten ++ first) ++ s :: (last ++ (after.modify k (fun l => l ++ l)).flatten) := by simp
      have e2 : before.flatten.length + (before.getD (before.length + (k + 1)) []).length + first.length = (before.flatten ++ first).length := by
        simp [List.getD]
      rw [e0, e1, e2]
      refine nearest_append (fun t ht => ?_) fun t ht => ?_
      · rcases List.mem_append.1 ht with ht | ht
        · exact hB t ht
        · exact hF t ht
      · rcases List.mem_append.1 ht with ht | ht
        · exact (hL t ht).le
        · exact (hA t (doubled_mem ht)).le
  have hd : (w.shape r).dim = w.d := rfl
  rw [hc, hempty x hx, Tessellate.nearest_unique hi hnum]
  exact Sparse.update_nil _ _

/-- **C79.** Two ranks give the same grain different numbers, if one of them comes before the rank of its seed and has seeds itself, and the other does not come before that rank. -/
theorem number_differs {before : List (List Seed)} {first : List Seed} {r r' : Nat} (h : before.getD r [] ≠ []) (h' : before.length ≤ r') :
    number before first r ≠ number before first r' := by
  unfold number
  have h1 : 0 < (before.getD r []).length := List.length_pos_iff.2 h
  have h2 : (before.getD r' []).length = 0 := by
    rw [List.getD_eq_getElem?_getD, List.getElem?_eq_none h']; rfl
  omega

theorem sampleWorld_ok : Tessellate.sampleWorld.Ok 2 := by
  have hj2 : ∀ j, j < 2 → j = 0 ∨ j = 1 := by intro j hj; omega
  refine ⟨⟨⟨fun j hj => ?_, by decide⟩, by decide, fun j hj => ?_, by decide, fun j hj => ?_, fun r h0 h1 j hj => ?_⟩, fun j hj => ?_, fun j hj h => ?_⟩
  · rcases hj2 j hj with rfl | rfl <;> decide
  · rcases hj2 j hj with rfl | rfl <;> decide
  · rcases hj2 j hj with rfl | rfl <;> decide
  · have hr : r = 0 ∨ r = 1 := by omega
    rcases hj2 j hj with rfl | rfl <;> rcases hr with rfl | rfl <;> decide +kernel
  · exact ⟨show BC.periodic ≠ BC.parallel by decide, show BC.neumann ≠ BC.parallel by decide⟩
  · rcases h with h | h
    · exact absurd h (show BC.periodic ≠ BC.mirror by decide)
    · exact absurd h (show BC.neumann ≠ BC.mirror by decide)

/-- **C79.** A square of four by four nodes on two ranks, each with one seed: the grain of the second seed has number 2 on rank 0 and number 1 on rank 1. -/
theorem grain_split {T : Type} [Zero T] [One T] : ∃ out out' : Int → Sparse.Cell T,
    tessellateMpi (Tessellate.sampleWorld.shape (0 : Nat)) [[⟨0, 0, 0⟩], [⟨1, 2, 0⟩]] 0 (fun _ => []) = .ok out ∧
    tessellateMpi (Tessellate.sampleWorld.shape (1 : Nat)) [[⟨0, 0, 0⟩], [⟨1, 2, 0⟩]] 1 (fun _ => []) = .ok out' ∧
    cellAt (Tessellate.sampleWorld.shape (0 : Nat)) out (fun d => if d = 0 then 1 else 2) = [(2, 1)] ∧
    cellAt (Tessellate.sampleWorld.shape (1 : Nat)) out' (fun _ => 2) = [(1, 1)] := by
  have h2 : ∀ j, j < 2 → j = 0 ∨ j = 1 := by intro j hj; omega
  have hbox : ∀ t ∈ ([[(⟨0, 0, 0⟩ : Seed)]] ++ ([] ++ (⟨1, 2, 0⟩ : Seed) :: []) :: []).flatten, Tessellate.InBox Tessellate.sampleWorld.d Tessellate.sampleWorld.g0 Tessellate.sampleWorld.g1 t := by
    intro s hs j hj
    simp only [List.nil_append, List.cons_append, List.flatten_cons, List.flatten_nil, List.append_nil, List.mem_cons, List.not_mem_nil, or_false] at hs
    rcases hs with rfl | rfl <;> rcases h2 j hj with rfl | rfl <;> decide
  have hsmall : ∀ t ∈ ([[(⟨0, 0, 0⟩ : Seed)]] ++ ([] ++ (⟨1, 2, 0⟩ : Seed) :: []) :: []).flatten, ∀ x, InGlobal Tessellate.sampleWorld.d Tessellate.sampleWorld.g0 Tessellate.sampleWorld.g1 x →
      sqDist Tessellate.sampleWorld.d x t < 2 ^ 31 - 1 := by
    intro t ht x hx
    have a0 : (0 : Int) ≤ x 0 ∧ x 0 < 4 := hx 0 (by decide)
    have a1 : (0 : Int) ≤ x 1 ∧ x 1 < 4 := hx 1 (by decide)
    have b0 : (0 : Int) ≤ t.at 0 ∧ t.at 0 < 4 := hbox t ht 0 (by decide)
    have b1 : (0 : Int) ≤ t.at 1 ∧ t.at 1 < 4 := hbox t ht 1 (by decide)
    have : sqDist Tessellate.sampleWorld.d x t = (t.at 0 - x 0) ^ 2 + (t.at 1 - x 1) ^ 2 := by
      show ∑ j ∈ Finset.range 2, _ = _
      simp [Finset.sum_range_succ]
    rw [this]
    nlinarith
  obtain ⟨out, e, hv⟩ := tessellateMpi_number (T := T) (r := 0) sampleWorld_ok (by decide) hbox hsmall (data := fun _ => []) fun _ _ => rfl
  obtain ⟨out', e', hv'⟩ := tessellateMpi_number (T := T) (r := 1) sampleWorld_ok (by decide) hbox hsmall (data := fun _ => []) fun _ _ => rfl
  refine ⟨out, out', e, e', hv _ ?_ ?_, hv' _ ?_ ?_⟩
  · intro j hj
    rcases h2 j hj with rfl | rfl <;> decide +kernel
  · intro t ht
    simp only [List.append_nil, List.flatten_cons, List.flatten_nil, List.mem_cons, List.not_mem_nil, or_false] at ht
    subst ht
    decide +kernel
  · intro j hj
    rcases h2 j hj with rfl | rfl <;> decide +kernel
  · intro t ht
    simp only [List.append_nil, List.flatten_cons, List.flatten_nil, List.mem_cons, List.not_mem_nil, or_false] at ht
    subst ht
    decide +kernel

end MMSP.Generators
