import Verif.TopologyProps
import Mathlib.Tactic.FieldSimp
import Mathlib.Tactic.Linarith
/-!
# Grain topology: vertices, averages, the whole tool and planes

Claims about `inferVertices`, `getPbar`, `isPlateaunic`, the loop over all grains, and the two-dimensional branch of the loop over the nodes.
-/

namespace MMSP.Topology

/-! ## Vertices -/

section
variable {α : Type}

/-- The pair `{a, b}` is an edge. -/
def Edge (edges : List (Ids × List (Nat → Int))) (a b : Nat) : Prop := a < b ∧ [a, b] ∈ edges.map Prod.fst

/-- Three faces that meet pairwise along edges. -/
def Triple (edges : List (Ids × List (Nat → Int))) (v : Ids) : Prop := ∃ a b c, v = [a, b, c] ∧ Edge edges a b ∧ Edge edges b c ∧ Edge edges a c

theorem hasEdge_iff {edges : List (Ids × List (Nat → Int))} {a b : Nat} (h : a ≠ b) : hasEdge edges a b = true ↔ Edge edges a b ∨ Edge edges b a := by
  unfold hasEdge Edge
  rw [List.any_eq_true]
  simp only [decide_eq_true_eq, List.mem_map]
  rcases Nat.lt_or_gt_of_ne h with hab | hab
  · have e : insertId b (insertId a []) = [a, b] := by
      have h1 : ¬ b < a := by omega
      have h2 : ¬ b = a := by omega
      simp [insertId, h1, h2]
    rw [e]
    constructor
    · rintro ⟨x, hx, hx'⟩; exact Or.inl ⟨hab, x, hx, hx'⟩
    · rintro (⟨-, x, hx, hx'⟩ | ⟨hba, -⟩)
      · exact ⟨x, hx, hx'⟩
      · omega
  · have e : insertId b (insertId a []) = [b, a] := by simp [insertId, hab]
    rw [e]
    constructor
    · rintro ⟨x, hx, hx'⟩; exact Or.inr ⟨hab, x, hx, hx'⟩
    · rintro (⟨hba, -⟩ | ⟨-, x, hx, hx'⟩)
      · omega
      · exact ⟨x, hx, hx'⟩

theorem insertSet_spec {v w : Ids} {vs : List Ids} : (w ∈ insertSet v vs ↔ w ∈ vs ∨ w = v) ∧ (vs.Nodup → (insertSet v vs).Nodup) := by
  unfold insertSet
  split_ifs with h
  · exact ⟨⟨Or.inl, fun h' => h'.elim id fun e => e ▸ h⟩, id⟩
  · refine ⟨by simp, fun hn => ?_⟩
    rw [List.nodup_append]
    refine ⟨hn, by simp, ?_⟩
    intro a ha b hb e
    rw [List.mem_singleton] at hb
    subst hb; subst e
    exact h ha

theorem corners_spec {gr : Grain α} {vs : List Ids} {a b : Nat} (hab : a < b) : ∃ vs', corners gr vs [a, b] = .ok vs' ∧ (vs.Nodup → vs'.Nodup) ∧
    ∀ v, v ∈ vs' ↔ v ∈ vs ∨ ∃ c ∈ gr.faces, c ≠ a ∧ c ≠ b ∧ hasEdge gr.edges a c = true ∧ hasEdge gr.edges b c = true ∧ v = insertId c [a, b] := by
  unfold corners
  dsimp only
  rw [if_neg (by omega)]
  have e : insertId b (insertId a []) = [a, b] := by
    have h1 : ¬ b < a := by omega
    have h2 : ¬ b = a := by omega
    simp [insertId, h1, h2]
  rw [e]
  refine ⟨_, rfl, ?_, ?_⟩
  · generalize gr.faces = F
    induction F generalizing vs with
    | nil => exact id
    | cons c F ih =>
      intro h
      rw [List.foldl_cons]
      apply ih
      split_ifs
      · exact h
      · exact (insertSet_spec (w := [])).2 h
      · exact h
  · generalize gr.faces = F
    induction F generalizing vs with
    | nil => simp
    | cons c F ih =>
      intro v
      rw [List.foldl_cons, ih]
      simp only [List.mem_cons, exists_eq_or_imp]
      rw [← or_assoc]
      apply or_congr_left
      split_ifs with h1 h2
      · constructor
        · exact Or.inl
        · rintro (h | ⟨n1, n2, -⟩)
          · exact h
          · exact absurd h1 (by rintro (h | h); exacts [n1 h, n2 h])
      · rw [insertSet_spec.1]
        apply or_congr_right
        constructor
        · intro h; exact ⟨fun e => h1 (Or.inl e), fun e => h1 (Or.inr e), h2.1, h2.2, h⟩
        · rintro ⟨-, -, -, -, h⟩; exact h
      · constructor
        · exact Or.inl
        · rintro (h | ⟨-, -, n1, n2, -⟩)
          · exact h
          · exact absurd ⟨n1, n2⟩ h2

theorem mem_faces_of_edge {gr : Grain α} (hg : Good gr.edges gr.faces) {a b : Nat} (h : Edge gr.edges a b) : a ∈ gr.faces ∧ b ∈ gr.faces := by
  obtain ⟨e, he, e1⟩ := List.mem_map.1 h.2
  obtain ⟨a', b', -, e2, ha, hb, -⟩ := hg.pair e he
  rw [e1] at e2
  simp only [List.cons.injEq, and_true] at e2
  rw [e2.1, e2.2]
  exact ⟨ha, hb⟩

/-- **C46.** `inferVertices` fails no assertion and gives the grain exactly one vertex for every three faces that meet pairwise along edges. -/
theorem inferVertices_spec {gr : Grain α} (hg : Good gr.edges gr.faces) (hv : gr.vertices = []) :
    ∃ vs r, inferVertices gr = .ok ({ gr with vertices := vs }, r) ∧ vs.Nodup ∧ ∀ v, v ∈ vs ↔ Triple gr.edges v := by
  have hself : gr = { gr with vertices := [] } := by rw [← hv]
  have few : (gr.edges.length < 3 ∨ gr.faces.length < 3) → ∀ v, ¬ Triple gr.edges v := by
    rintro hlt v ⟨a, b, c, -, h1, h2, h3⟩
    rcases hlt with hlt | hlt
    · have hsub : [[a, b], [b, c], [a, c]] ⊆ gr.edges.map Prod.fst := by
        intro w hw
        simp only [List.mem_cons, List.not_mem_nil, or_false] at hw
        rcases hw with rfl | rfl | rfl
        exacts [h1.2, h2.2, h3.2]
      have hnd : [[a, b], [b, c], [a, c]].Nodup := by
        have := h1.1; have := h2.1
        simp; omega
      have := (List.subperm_of_subset hnd hsub).length_le
      simp at this; omega
    · have hsub : [a, b, c] ⊆ gr.faces := by
        intro w hw
        simp only [List.mem_cons, List.not_mem_nil, or_false] at hw
        rcases hw with rfl | rfl | rfl
        exacts [(mem_faces_of_edge hg h1).1, (mem_faces_of_edge hg h1).2, (mem_faces_of_edge hg h2).2]
      have hnd : [a, b, c].Nodup := by
        have := h1.1; have := h2.1
        simp; omega
      have := (List.subperm_of_subset hnd hsub).length_le
      simp at this; omega
  unfold inferVertices
  by_cases h1 : gr.edges.length < 3
  · rw [if_pos h1]
    refine ⟨[], -1, ?_, List.nodup_nil, fun v => ?_⟩
    · rw [← hself]
    · have := few (Or.inl h1) v; simp [this]
  · rw [if_neg h1]
    by_cases h2 : gr.faces.length < 3
    · rw [if_pos h2]
      refine ⟨[], 0, ?_, List.nodup_nil, fun v => ?_⟩
      · rw [← hself]
      · have := few (Or.inr h2) v; simp [this]
    · rw [if_neg h2]
      have key : ∀ (L : List (Ids × List (Nat → Int))), (∀ e ∈ L, e ∈ gr.edges) → ∀ vs : List Ids, vs.Nodup → ∃ vs', L.foldlM (fun vs e => corners gr vs e.1) vs = Outcome.ok vs' ∧ vs'.Nodup ∧
          ∀ v, v ∈ vs' ↔ v ∈ vs ∨ ∃ e ∈ L, ∃ a b, a < b ∧ e.1 = [a, b] ∧ ∃ c ∈ gr.faces, c ≠ a ∧ c ≠ b ∧ hasEdge gr.edges a c = true ∧ hasEdge gr.edges b c = true ∧ v = insertId c [a, b] := by
        intro L
        induction L with
        | nil => intro _ vs h; exact ⟨vs, rfl, h, by simp⟩
        | cons e L ih =>
          intro hL vs hvs
          obtain ⟨a, b, hab, e1, -⟩ := hg.pair e (hL e (by simp))
          obtain ⟨vs1, c1, c2, c3⟩ := corners_spec (gr := gr) (vs := vs) hab
          obtain ⟨vs2, d1, d2, d3⟩ := ih (fun e' h => hL e' (by simp [h])) vs1 (c2 hvs)
          refine ⟨vs2, ?_, d2, fun v => ?_⟩
          · rw [List.foldlM_cons, e1, c1, Outcome.bind_eq, Outcome.ok_bind, d1]
          · rw [d3, c3, or_assoc]
            apply or_congr_right
            simp only [List.mem_cons, exists_eq_or_imp]
            apply or_congr_left
            constructor
            · intro h; exact ⟨a, b, hab, e1, h⟩
            · rintro ⟨a', b', -, e2, h⟩
              rw [e1] at e2
              simp only [List.cons.injEq, and_true] at e2
              rw [e2.1, e2.2]; exact h
      obtain ⟨vs, k1, k2, k3⟩ := key gr.edges (fun _ h => h) [] List.nodup_nil
      rw [k1, Outcome.ok_bind]
      refine ⟨vs, _, rfl, k2, fun v => ?_⟩
      rw [k3]
      simp only [List.not_mem_nil, false_or]
      constructor
      · rintro ⟨e, he, a, b, hab, e1, c, -, ca, cb, ha, hb, rfl⟩
        have hE : Edge gr.edges a b := ⟨hab, by rw [← e1]; exact List.mem_map_of_mem he⟩
        rw [hasEdge_iff (Ne.symm ca)] at ha
        rw [hasEdge_iff (Ne.symm cb)] at hb
        by_cases o1 : c < a
        · have ha' : Edge gr.edges c a := ha.elim (fun h => absurd h.1 (by omega)) id
          have hb' : Edge gr.edges c b := hb.elim (fun h => absurd h.1 (by omega)) id
          exact ⟨c, a, b, by simp [insertId, o1], ha', hE, hb'⟩
        · have ha' : Edge gr.edges a c := ha.elim id (fun h => absurd h.1 (by omega))
          by_cases o2 : c < b
          · have hb' : Edge gr.edges c b := hb.elim (fun h => absurd h.1 (by omega)) id
            exact ⟨a, c, b, by simp [insertId, o1, o2, ca], ha', hb', hE⟩
          · have hb' : Edge gr.edges b c := hb.elim id (fun h => absurd h.1 (by omega))
            exact ⟨a, b, c, by simp [insertId, o1, o2, ca, cb], hE, hb', ha'⟩
      · rintro ⟨a, b, c, rfl, h1, h2, h3⟩
        obtain ⟨e, he, e1⟩ := List.mem_map.1 h1.2
        have l1 := h1.1
        have l2 := h2.1
        have n1 : ¬ c < a := by omega
        have n2 : ¬ c < b := by omega
        have n3 : ¬ c = a := by omega
        have n4 : ¬ c = b := by omega
        exact ⟨e, he, a, b, l1, e1, c, (mem_faces_of_edge hg h2).2, n3, n4, (hasEdge_iff (Ne.symm n3)).2 (Or.inl h3), (hasEdge_iff (Ne.symm n4)).2 (Or.inl h2),
          by simp [insertId, n1, n2, n3, n4]⟩

/-- **C46.** A grain with three faces has at most one vertex, so it is never among those printed. -/
theorem three_faces_hidden {gr gr' : Grain α} (hg : Good gr.edges gr.faces) (hv : gr.vertices = []) {r : Int} (h : inferVertices gr = .ok (gr', r)) (h3 : gr.faces.length ≤ 3) :
    printed gr' = false := by
  obtain ⟨vs, r', e, hnd, hs⟩ := inferVertices_spec hg hv
  rw [e] at h
  obtain ⟨h1, -⟩ := Prod.mk.inj (Outcome.ok.inj h)
  subst h1
  have hle : vs.length ≤ 1 := by
    have hall : ∀ v ∈ vs, v = gr.faces := by
      intro v hm
      obtain ⟨a, b, c, rfl, e1, e2, e3⟩ := (hs v).1 hm
      have hsub : [a, b, c] ⊆ gr.faces := by
        intro w hw
        simp only [List.mem_cons, List.not_mem_nil, or_false] at hw
        rcases hw with rfl | rfl | rfl
        exacts [(mem_faces_of_edge hg e1).1, (mem_faces_of_edge hg e1).2, (mem_faces_of_edge hg e2).2]
      have l1 := e1.1
      have l2 := e2.1
      have hnd : [a, b, c].Nodup := by simp; omega
      have hperm := (List.subperm_of_subset hnd hsub).perm_of_length_le (by simpa using h3)
      apply asc_ext (by simp [Asc]; omega) hg.asc
      intro k
      exact hperm.mem_iff
    match vs, hnd, hall with
    | [], _, _ => simp
    | [_], _, _ => simp
    | v :: w :: l, hn, ha =>
      exfalso
      have h1 := ha v (by simp)
      have h2 := ha w (by simp)
      rw [List.nodup_cons] at hn
      exact hn.1 (by rw [h1, ← h2]; simp)
  unfold printed
  simp; omega

end

/-! ## Averages -/

section
variable {α : Type} [Field α] [LinearOrder α]

omit [LinearOrder α] in
/-- **C46.** The mean number of edges per face is `2E/F`. -/
theorem pbar_spec {gr : Grain α} (hg : Good gr.edges gr.faces) (he : gr.edges ≠ []) {pvec : List Nat} {n : Nat} (h : makePvector gr = .ok (pvec, n)) :
    pbar pvec = some ((2 * (gr.edges.length : α)) / gr.faces.length) := by
  obtain ⟨m1, m2⟩ := makePvector_spec hg he
  by_cases hex : ∃ f ∈ gr.faces, edgeCount gr.edges f = 1
  · rw [m1 hex] at h; cases h
  · obtain ⟨p, e, -, s1, s2⟩ := m2 fun f hf e => hex ⟨f, hf, e⟩
    rw [e] at h
    obtain ⟨h1, -⟩ := Prod.mk.inj (Outcome.ok.inj h)
    subst h1
    have f1 : p.foldl (· + ·) 0 = p.sum := List.sum_eq_foldl.symm
    have f2 : ∀ (L : List (Nat × Nat)) (s : Nat), L.foldl (fun (s : Nat) e => s + e.1 * e.2) s = s + (L.map fun e => e.1 * e.2).sum := by
      intro L
      induction L with
      | nil => simp
      | cons x L ih => intro s; rw [List.foldl_cons, ih, List.map_cons, List.sum_cons]; omega
    have hF : gr.faces.length ≠ 0 := by
      obtain ⟨x, hx⟩ := List.exists_mem_of_ne_nil _ he
      obtain ⟨a, b, -, -, ha, -⟩ := hg.pair x hx
      have := List.length_pos_of_mem ha; omega
    unfold pbar
    dsimp only
    rw [f1, f2, s1, s2, if_neg hF]
    push_cast
    rw [zero_add]

/-- **C46.** "Plateaunic" grains are exactly those with a mean of `6 - 12/F` edges per face. -/
theorem plateaunic_iff [IsStrictOrderedRing α] {gr : Grain α} (hg : Good gr.edges gr.faces) (he : gr.edges ≠ []) (hE : gr.edges.length < 2 ^ 62) (hF : gr.faces.length < 2 ^ 62)
    {pvec : List Nat} {n : Nat} (h : makePvector gr = .ok (pvec, n)) :
    plateaunic gr = true ↔ pbar pvec = some (6 - 12 / (gr.faces.length : α)) := by
  rw [pbar_spec hg he h, Option.some_inj]
  have h2 : 2 ≤ gr.faces.length := by
    obtain ⟨x, hx⟩ := List.exists_mem_of_ne_nil _ he
    obtain ⟨a, b, hab, -, ha, hb, -⟩ := hg.pair x hx
    have hnd : [a, b].Nodup := by simp; omega
    have := (List.subperm_of_subset hnd (show [a, b] ⊆ gr.faces by intro w hw; simp at hw; rcases hw with rfl | rfl <;> assumption)).length_le
    simpa using this
  have hl : plateaunic gr = true ↔ (gr.edges.length : Int) = 3 * gr.faces.length - 6 := by
    unfold plateaunic
    rw [decide_eq_true_iff]
    constructor
    · intro hm; omega
    · intro hm; rw [hm]
  rw [hl]
  have hpos : (gr.faces.length : α) ≠ 0 := by
    have : gr.faces.length ≠ 0 := by omega
    exact_mod_cast this
  constructor
  · intro hm
    have hc : (gr.edges.length : α) = 3 * gr.faces.length - 6 := by exact_mod_cast congrArg (Int.cast (R := α)) hm
    rw [hc]; field_simp; ring
  · intro hm
    field_simp at hm
    have hc : (gr.edges.length : α) = 3 * gr.faces.length - 6 := by linarith
    have hz : ((gr.edges.length : Int) : α) = ((3 * gr.faces.length - 6 : Int) : α) := by push_cast; exact hc
    exact_mod_cast hz

/-! ## Grains met so far -/

/-- One of the nodes before `N` belongs to grain `k` or lists it. -/
def Met (data : Int → Sparse.Cell α) (grain : Int → Nat) (N k : Nat) : Prop := ∃ m : Nat, m < N ∧ (k = toId (grain m) ∨ ∃ e ∈ data m, toId e.1 = k)

omit [LinearOrder α] in
theorem masses_isSome (c : Sparse.Cell α) (major : Nat) (x : Nat → Int) (gs : Grains α) (k : Nat) :
    (masses c major x gs k).isSome ↔ (gs k).isSome ∨ k = major ∨ ∃ e ∈ c, toId e.1 = k := by
  unfold masses
  generalize Sparse.get c = val
  have key : ∀ (L : List (Int × α)) (gs : Grains α),
      (L.foldl (fun gs e => if toId e.1 = major then gs else massAt (toId e.1) (val (toId e.1)) x gs) gs k).isSome ↔ (gs k).isSome ∨ ∃ e ∈ L, toId e.1 = k ∧ k ≠ major := by
    intro L
    induction L with
    | nil => intro gs; simp
    | cons e L ih =>
      intro gs
      rw [List.foldl_cons, ih]
      simp only [List.mem_cons, exists_eq_or_imp]
      rw [← or_assoc]
      apply or_congr_left
      split_ifs with h
      · constructor
        · exact Or.inl
        · rintro (h' | ⟨h1, h2⟩)
          · exact h'
          · exact absurd (h1.symm.trans h) h2
      · rw [isSome_massAt]
        apply or_congr_right
        constructor
        · intro e'; exact ⟨e'.symm, fun h' => h (e'.symm.trans h')⟩
        · intro h'; exact h'.1.symm
  rw [key, isSome_massAt]
  by_cases hk : k = major
  · simp [hk]
  · simp [hk]

omit [Field α] [LinearOrder α] in
theorem modify_isSome {i : Nat} {f : Grain α → Grain α} {gs gs' : Grains α} (h : modify i f gs = .ok gs') (k : Nat) : (gs' k).isSome ↔ (gs k).isSome := by
  unfold modify at h
  cases hx : gs i with
  | none => rw [hx] at h; cases h
  | some gr =>
    rw [hx] at h
    have h := Outcome.ok.inj h
    subst h
    dsimp only
    split_ifs with e
    · subst e; simp [hx]
    · rfl

omit [Field α] [LinearOrder α] in
theorem classify2_isSome {major : Nat} {s : Ids} {x : Nat → Int} {gs gs' : Grains α} (h : classify2 major s x gs = .ok gs') (k : Nat) : (gs' k).isSome ↔ (gs k).isSome := by
  unfold classify2 at h
  split_ifs at h with h1 h2
  · exact modify_isSome h k
  · have key : ∀ (L : Ids) (gs : Grains α), L.foldlM (fun gs j => modify j (Grain.updateVertices s) gs) gs = Outcome.ok gs' → ((gs' k).isSome ↔ (gs k).isSome) := by
      intro L
      induction L with
      | nil => intro gs h; rw [Outcome.ok.inj h]
      | cons i L ih =>
        intro gs h
        rw [List.foldlM_cons, Outcome.bind_eq] at h
        cases hm : modify i (Grain.updateVertices s) gs with
        | ub => rw [hm] at h; cases h
        | abort c => rw [hm] at h; cases h
        | ok g2 => rw [hm, Outcome.ok_bind] at h; rw [ih g2 h]; exact modify_isSome hm k
    exact key s gs h
  · rw [Outcome.ok.inj h]

omit [Field α] [LinearOrder α] in
theorem classify3_isSome {major : Nat} {s : Ids} {x : Nat → Int} {gs gs' : Grains α} (h : classify3 major s x gs = .ok gs') (k : Nat) : (gs' k).isSome ↔ (gs k).isSome := by
  unfold classify3 at h
  split_ifs at h with h1
  · cases hm : modify major (Grain.updateEdges s x) gs with
    | ub => rw [hm] at h; cases h
    | abort c => rw [hm] at h; cases h
    | ok g2 => rw [hm, Outcome.ok_bind] at h; rw [modify_isSome h k]; exact modify_isSome hm k
  · rw [Outcome.ok.inj h]

/-- What is done at a node. -/
theorem node_eq {g : Shape} (hg : g.Wf) (h0 : g.ghosts = 0) {data : Int → Sparse.Cell α} {grain : Int → Nat} (hk : Known g data grain) {N : Nat} (hN : N < g.nodes.toNat) (gs : Grains α) :
    ∃ s, Asc s ∧ (∀ k, k ∈ s ↔ ∃ y, Adjacent g (g.position N) y ∧ grain (g.rawOffset y) ≠ toId (grain N) ∧ k = toId (grain (g.rawOffset y))) ∧
      node g data gs N = (if g.dim = 2 then classify2 (toId (grain N)) s (g.position N) (masses (data N) (toId (grain N)) (g.position N) gs)
        else classify3 (toId (grain N)) s (g.position N) (masses (data N) (toId (grain N)) (g.position N) gs)) := by
  have hcn := Convert.cells_eq h0
  obtain ⟨s, es, hs, hm⟩ := checkNeighbors_spec hg h0 hk (toId (grain N)) (g.position N)
  refine ⟨s, hs, hm, ?_⟩
  unfold node
  have hdr : deref g data (g.atNode .serial N) = .ok (data N) := if_pos (show 0 ≤ (N : Int) ∧ (N : Int) < g.cells by omega)
  rw [hdr, Outcome.ok_bind, hk N hN, Outcome.ok_bind]
  dsimp only
  rw [es, Outcome.ok_bind]

/-- The grains after `N` nodes are those met so far. -/
theorem met_iff {g : Shape} (hg : g.Wf) (h0 : g.ghosts = 0) {data : Int → Sparse.Cell α} {grain : Int → Nat} (hk : Known g data grain) {N : Nat} (hN : N ≤ g.nodes.toNat) {gs : Grains α}
    (h : (List.range N).foldlM (node g data) (fun _ => none) = Outcome.ok gs) (k : Nat) : (gs k).isSome ↔ Met data grain N k := by
  induction N generalizing gs with
  | zero =>
    rw [List.range_zero, List.foldlM_nil] at h
    rw [← Outcome.ok.inj h]
    unfold Met
    simp
  | succ N ih =>
    rw [List.range_succ, List.foldlM_append, Outcome.bind_eq] at h
    cases h1 : (List.range N).foldlM (node g data) (fun _ => none) with
    | ub => rw [h1] at h; cases h
    | abort c => rw [h1] at h; cases h
    | ok g1 =>
      rw [h1, Outcome.ok_bind, List.foldlM_cons, Outcome.bind_eq] at h
      cases h2 : node g data g1 N with
      | ub => rw [h2] at h; cases h
      | abort c => rw [h2] at h; cases h
      | ok g2 =>
        rw [h2, Outcome.ok_bind, List.foldlM_nil] at h
        have h := Outcome.ok.inj h
        subst h
        obtain ⟨s, -, -, hnode⟩ := node_eq hg h0 hk (show N < g.nodes.toNat by omega) g1
        rw [hnode] at h2
        have hstep : (g2 k).isSome ↔ (masses (data N) (toId (grain N)) (g.position N) g1 k).isSome := by
          split_ifs at h2
          · exact classify2_isSome h2 k
          · exact classify3_isSome h2 k
        rw [hstep, masses_isSome, ih (by omega) h1]
        unfold Met
        constructor
        · rintro (⟨m, hm, h⟩ | h)
          · exact ⟨m, by omega, h⟩
          · exact ⟨N, by omega, h⟩
        · rintro ⟨m, hm, h⟩
          by_cases e : m = N
          · subst e; exact Or.inr h
          · exact Or.inl ⟨m, by omega, h⟩

/-! ## The whole tool, three dimensions -/

/-- Face `f` of grain `k` has the single edge towards `f'`. -/
def OneEdge (g : Shape) (grain : Int → Nat) (k f : Nat) : Prop := ∃! f', f' ≠ f ∧ ∃ n : Nat, n < g.nodes.toNat ∧ Touching g grain n k f f'

omit [Field α] [LinearOrder α] in
theorem Touching.symm {g : Shape} {grain : Int → Nat} {n k a b : Nat} (h : Touching g grain n k a b) : Touching g grain n k b a := ⟨h.1, fun i => by rw [or_comm]; exact h.2 i⟩

omit [Field α] [LinearOrder α] in
theorem edgeCount_one {g : Shape} {grain : Int → Nat} {k : Nat} {edges : List (Ids × List (Nat → Int))} {faces : Ids} (hg : Good edges faces)
    (he : ∀ a b, a < b → ([a, b] ∈ edges.map Prod.fst ↔ ∃ n : Nat, n < g.nodes.toNat ∧ Touching g grain n k a b)) (f : Nat) :
    edgeCount edges f = 1 ↔ OneEdge g grain k f := by
  have hpart : ∀ f', (f' ≠ f ∧ ∃ n : Nat, n < g.nodes.toNat ∧ Touching g grain n k f f') ↔ ∃ e ∈ edges, e.1 = insertId f' [f] ∧ f' ≠ f := by
    intro f'
    have e1 : f < f' → insertId f' [f] = [f, f'] := by
      intro h
      have h1 : ¬ f' < f := by omega
      have h2 : ¬ f' = f := by omega
      simp [insertId, h1, h2]
    have e2 : f' < f → insertId f' [f] = [f', f] := by intro h; simp [insertId, h]
    constructor
    · rintro ⟨hne, n, hn, ht⟩
      rcases Nat.lt_or_gt_of_ne hne with h | h
      · obtain ⟨e, hm, hx⟩ := List.mem_map.1 ((he f' f h).2 ⟨n, hn, ht.symm⟩)
        exact ⟨e, hm, by rw [e2 h, hx], hne⟩
      · obtain ⟨e, hm, hx⟩ := List.mem_map.1 ((he f f' h).2 ⟨n, hn, ht⟩)
        exact ⟨e, hm, by rw [e1 h, hx], hne⟩
    · rintro ⟨e, hm, hx, hne⟩
      refine ⟨hne, ?_⟩
      rcases Nat.lt_or_gt_of_ne hne with h | h
      · rw [e2 h] at hx
        obtain ⟨n, hn, ht⟩ := (he f' f h).1 (hx ▸ List.mem_map_of_mem hm)
        exact ⟨n, hn, ht.symm⟩
      · rw [e1 h] at hx
        exact (he f f' h).1 (hx ▸ List.mem_map_of_mem hm)
  have hform : ∀ e ∈ edges, f ∈ e.1 → ∃ f', f' ≠ f ∧ e.1 = insertId f' [f] := by
    intro e hm hf
    obtain ⟨a, b, hab, hx, -⟩ := hg.pair e hm
    rw [hx] at hf
    simp only [List.mem_cons, List.not_mem_nil, or_false] at hf
    rcases hf with rfl | rfl
    · refine ⟨b, by omega, ?_⟩
      have h1 : ¬ b < f := by omega
      have h2 : ¬ b = f := by omega
      simp [hx, insertId, h1, h2]
    · exact ⟨a, by omega, by simp [hx, insertId, hab]⟩
  have hinj : ∀ f1 f2, f1 ≠ f → f2 ≠ f → insertId f1 [f] = insertId f2 [f] → f1 = f2 := by
    intro f1 f2 h1 h2 h
    have : f1 ∈ insertId f2 [f] := by rw [← h]; exact mem_insertId.2 (Or.inl rfl)
    rcases mem_insertId.1 this with h | h
    · exact h
    · exact absurd (List.mem_singleton.1 h) h1
  unfold OneEdge
  simp only [hpart]
  unfold edgeCount
  rw [List.length_eq_one_iff]
  constructor
  · rintro ⟨e, hx⟩
    have hm : e ∈ edges.filter fun e => decide (f ∈ e.1) := by rw [hx]; simp
    rw [List.mem_filter, decide_eq_true_iff] at hm
    obtain ⟨f', hne, hf⟩ := hform e hm.1 hm.2
    refine ⟨f', ⟨e, hm.1, hf, hne⟩, ?_⟩
    rintro f2 ⟨e2, hm2, hf2, hne2⟩
    have : e2 ∈ edges.filter fun e => decide (f ∈ e.1) := by
      rw [List.mem_filter, decide_eq_true_iff, hf2]
      exact ⟨hm2, mem_insertId.2 (Or.inr (by simp))⟩
    rw [hx, List.mem_singleton] at this
    subst this
    exact hinj _ _ hne2 hne (hf2.symm.trans hf)
  · rintro ⟨f', ⟨e, hm, hf, hne⟩, huniq⟩
    have hin : e ∈ edges.filter fun e => decide (f ∈ e.1) := by
      rw [List.mem_filter, decide_eq_true_iff, hf]
      exact ⟨hm, mem_insertId.2 (Or.inr (by simp))⟩
    have hkeys : ((edges.filter fun e => decide (f ∈ e.1)).map Prod.fst).Nodup := hg.once.sublist (List.filter_sublist.map _)
    have hall : ∀ e2 ∈ edges.filter fun e => decide (f ∈ e.1), e2.1 = e.1 := by
      intro e2 h2
      rw [List.mem_filter, decide_eq_true_iff] at h2
      obtain ⟨f2, hne2, hf2⟩ := hform e2 h2.1 h2.2
      have := huniq f2 ⟨e2, h2.1, hf2, hne2⟩
      rw [hf2, hf, this]
    generalize edges.filter (fun e => decide (f ∈ e.1)) = L at hin hkeys hall
    match L, hin, hkeys, hall with
    | [a], _, _, _ => exact ⟨a, rfl⟩
    | a :: b :: l, _, hk, ha =>
      exfalso
      rw [List.map_cons, List.nodup_cons] at hk
      exact hk.1 (by rw [ha a (by simp), List.map_cons, ha b (by simp)]; simp)

omit [LinearOrder α] in
theorem massAt_vertices (i : Nat) (v : α) (x : Nat → Int) {gs : Grains α} (h : ∀ k gr, gs k = some gr → gr.vertices = [] ∧ k < 65536) (hi : i < 65536) :
    ∀ k gr, massAt i v x gs k = some gr → gr.vertices = [] ∧ k < 65536 := by
  intro k gr hk
  unfold massAt at hk
  split_ifs at hk with e
  · subst e
    rw [Option.some_inj] at hk
    subst hk
    refine ⟨?_, hi⟩
    cases hx : gs k with
    | none => rfl
    | some gr' => exact (h k gr' hx).1
  · exact h k gr hk

omit [LinearOrder α] in
theorem masses_vertices (c : Sparse.Cell α) {major : Nat} (hm : major < 65536) (x : Nat → Int) {gs : Grains α} (h : ∀ k gr, gs k = some gr → gr.vertices = [] ∧ k < 65536) :
    ∀ k gr, masses c major x gs k = some gr → gr.vertices = [] ∧ k < 65536 := by
  unfold masses
  have key : ∀ (L : List (Int × α)) (gs : Grains α), (∀ k gr, gs k = some gr → gr.vertices = [] ∧ k < 65536) →
      ∀ k gr, L.foldl (fun gs e => if toId e.1 = major then gs else massAt (toId e.1) (Sparse.get c (toId e.1)) x gs) gs k = some gr → gr.vertices = [] ∧ k < 65536 := by
    intro L
    induction L with
    | nil => intro gs h; exact h
    | cons e L ih =>
      intro gs h
      rw [List.foldl_cons]
      apply ih
      split_ifs
      · exact h
      · exact massAt_vertices _ _ _ h (toId_lt _)
  exact key c _ (massAt_vertices _ _ _ h hm)

omit [Field α] [LinearOrder α] in
theorem modify_vertices {i : Nat} {f : Grain α → Grain α} (hf : ∀ gr, (f gr).vertices = gr.vertices) {gs gs' : Grains α} (hm : modify i f gs = .ok gs')
    (h : ∀ k gr, gs k = some gr → gr.vertices = [] ∧ k < 65536) : ∀ k gr, gs' k = some gr → gr.vertices = [] ∧ k < 65536 := by
  unfold modify at hm
  cases hx : gs i with
  | none => rw [hx] at hm; cases hm
  | some gr0 =>
    rw [hx] at hm
    have hm := Outcome.ok.inj hm
    subst hm
    intro k gr hk
    dsimp only at hk
    split_ifs at hk with e
    · rw [Option.some_inj] at hk
      subst hk; subst e
      rw [hf]
      exact h k gr0 hx
    · exact h k gr hk

/-- In three dimensions the loop over the nodes leaves no vertices, and all grain numbers fit. -/
theorem collect3_vertices {g : Shape} (hd : g.dim ≠ 2) {data : Int → Sparse.Cell α} {gs : Grains α} (h : collect g data = .ok gs) : ∀ k gr, gs k = some gr → gr.vertices = [] ∧ k < 65536 := by
  unfold collect at h
  have key : ∀ (L : List Nat) (gs0 : Grains α), (∀ k gr, gs0 k = some gr → gr.vertices = [] ∧ k < 65536) → L.foldlM (node g data) gs0 = Outcome.ok gs →
      ∀ k gr, gs k = some gr → gr.vertices = [] ∧ k < 65536 := by
    intro L
    induction L with
    | nil => intro gs0 h0 e; rw [List.foldlM_nil] at e; exact Outcome.ok.inj e ▸ h0
    | cons n L ih =>
      intro gs0 h0 e
      rw [List.foldlM_cons, Outcome.bind_eq] at e
      cases hn : node g data gs0 n with
      | ub => rw [hn] at e; cases e
      | abort c => rw [hn] at e; cases e
      | ok g1 =>
        rw [hn, Outcome.ok_bind] at e
        apply ih g1 _ e
        unfold node at hn
        cases hc : deref g data (g.atNode .serial n) with
        | ub => rw [hc] at hn; cases hn
        | abort c => rw [hc] at hn; cases hn
        | ok c =>
          rw [hc, Outcome.ok_bind] at hn
          cases hi : Sparse.grainId (-1) c with
          | ub => rw [hi] at hn; cases hn
          | abort c => rw [hi] at hn; cases hn
          | ok i =>
            rw [hi, Outcome.ok_bind] at hn
            dsimp only at hn
            cases hs : checkNeighbors g data (toId i) (g.position n) with
            | ub => rw [hs] at hn; cases hn
            | abort c => rw [hs] at hn; cases hn
            | ok s =>
              rw [hs, Outcome.ok_bind, if_neg hd] at hn
              have h1 := masses_vertices c (toId_lt i) (g.position n) h0
              unfold classify3 at hn
              split_ifs at hn with h2
              · cases hm : modify (toId i) (Grain.updateEdges s (g.position n)) (masses c (toId i) (g.position n) gs0) with
                | ub => rw [hm] at hn; cases hn
                | abort c => rw [hm] at hn; cases hn
                | ok g2 =>
                  rw [hm, Outcome.ok_bind] at hn
                  refine modify_vertices (fun gr => ?_) hn (modify_vertices (f := Grain.updateEdges s (g.position n)) (fun gr => rfl) hm h1)
                  clear hn hm
                  generalize s = t
                  induction t generalizing gr with
                  | nil => rfl
                  | cons i t iht => rw [List.foldl_cons, iht]; rfl
              · exact Outcome.ok.inj hn ▸ h1
  exact key _ _ (by intro k gr h; cases h) h

/-- What is recorded for a grain. -/
structure Described (g : Shape) (grain : Int → Nat) (k : Nat) (gr : Grain α) (pvec : List Nat) : Prop where
  edges : ∀ a b, a < b → ([a, b] ∈ gr.edges.map Prod.fst ↔ ∃ n : Nat, n < g.nodes.toNat ∧ Touching g grain n k a b)
  once : (gr.edges.map Prod.fst).Nodup
  faces : ∀ f, f ∈ gr.faces ↔ ∃ f', Edge gr.edges f f' ∨ Edge gr.edges f' f
  vertices : ∀ v, v ∈ gr.vertices ↔ Triple gr.edges v
  single : gr.vertices.Nodup
  entries : gr.edges ≠ [] → ∀ p, pvec.getD p 0 = (gr.faces.filter fun f => edgeCount gr.edges f = p).length
  total : pvec.sum = gr.faces.length
  twice : (pvec.zipIdx.map fun e => e.1 * e.2).sum = 2 * gr.edges.length

omit [Field α] [LinearOrder α] in
theorem good_faces {gr : Grain α} (hg : Good gr.edges gr.faces) (f : Nat) : f ∈ gr.faces ↔ ∃ f', Edge gr.edges f f' ∨ Edge gr.edges f' f := by
  constructor
  · intro hf
    obtain ⟨e, he, hfe⟩ := hg.onEdge f hf
    obtain ⟨a, b, hab, hx, -⟩ := hg.pair e he
    have hE : Edge gr.edges a b := ⟨hab, hx ▸ List.mem_map_of_mem he⟩
    rw [hx] at hfe
    simp only [List.mem_cons, List.not_mem_nil, or_false] at hfe
    rcases hfe with rfl | rfl
    · exact ⟨b, Or.inl hE⟩
    · exact ⟨a, Or.inr hE⟩
  · rintro ⟨f', h | h⟩
    · exact (mem_faces_of_edge hg h).1
    · exact (mem_faces_of_edge hg h).2

/-- **C46.** `mmsp2topo` on a three-dimensional grid: the assertion fails exactly if some face of some grain has a single edge; otherwise every grain comes out with its edges, its faces,
a vertex for every three faces meeting pairwise, and the p-vector. -/
theorem topology_spec {g : Shape} (hg : g.Wf) (h0 : g.ghosts = 0) (hd : g.dim = 3) {data : Int → Sparse.Cell α} {grain : Int → Nat} (hk : Known g data grain) :
    ((∃ k f, OneEdge g grain k f) → topology g data = .abort 134) ∧
    ((∀ k f, ¬ OneEdge g grain k f) → ∃ out, topology g data = .ok out ∧ (∀ e ∈ out, Described g grain e.1 e.2.1 e.2.2) ∧ (out.map Prod.fst).Nodup ∧
      ∀ n : Nat, n < g.nodes.toNat → toId (grain n) ∈ out.map Prod.fst) := by
  obtain ⟨gs, hc, hs⟩ := collect3_spec hg h0 (by omega) hk
  have hv := collect3_vertices (by omega) hc
  have hgr : ∀ k gr, gs k = some gr → Good gr.edges gr.faces ∧ ∀ a b, a < b → ([a, b] ∈ gr.edges.map Prod.fst ↔ ∃ n : Nat, n < g.nodes.toNat ∧ Touching g grain n k a b) := by
    intro k gr e
    have := hs k
    unfold edgesAt facesAt at this
    rw [e] at this
    exact this
  -- one grain
  have hone : ∀ k gr, gs k = some gr → (∃ f, OneEdge g grain k f) → computeTopology gr = .abort 134 := by
    rintro k gr e ⟨f, hf⟩
    obtain ⟨h1, h2⟩ := hgr k gr e
    have hcnt := (edgeCount_one h1 h2 f).2 hf
    have hfin : f ∈ gr.faces := by
      obtain ⟨x, hx⟩ : ∃ x : Ids × List (Nat → Int), x ∈ gr.edges.filter (fun e : Ids × List (Nat → Int) => decide (f ∈ e.1)) := by
        apply List.exists_mem_of_ne_nil
        intro h; unfold edgeCount at hcnt; rw [h] at hcnt; simp at hcnt
      rw [List.mem_filter, decide_eq_true_iff] at hx
      obtain ⟨a, b, hab, ha, m1, m2, -⟩ := h1.pair x hx.1
      have := hx.2
      rw [ha] at this
      simp only [List.mem_cons, List.not_mem_nil, or_false] at this
      rcases this with rfl | rfl <;> assumption
    have hne : gr.edges ≠ [] := by intro h; unfold edgeCount at hcnt; rw [h] at hcnt; simp at hcnt
    obtain ⟨vs, r, i1, -⟩ := inferVertices_spec h1 (hv k gr e).1
    unfold computeTopology
    rw [i1, Outcome.ok_bind, (makePvector_spec (gr := { gr with vertices := vs }) h1 hne).1 ⟨f, hfin, hcnt⟩, Outcome.abort_bind]
  have hnone : ∀ k gr, gs k = some gr → (∀ f, ¬ OneEdge g grain k f) → ∃ gr' pvec nums, computeTopology gr = .ok (gr', pvec, nums) ∧ Described g grain k gr' pvec := by
    intro k gr e hno
    obtain ⟨h1, h2⟩ := hgr k gr e
    obtain ⟨vs, r, i1, i2, i3⟩ := inferVertices_spec h1 (hv k gr e).1
    unfold computeTopology
    rw [i1, Outcome.ok_bind]
    by_cases hne : gr.edges = []
    · have hf : gr.faces = [] := by
        apply List.eq_nil_iff_forall_not_mem.2
        intro f hf
        obtain ⟨x, hx, -⟩ := h1.onEdge f hf
        rw [hne] at hx; simp at hx
      have hp : makePvector { gr with vertices := vs } = .ok ([0], 0) := by unfold makePvector; rw [if_pos (by simp [hne])]
      rw [hp, Outcome.ok_bind]
      exact ⟨_, _, _, rfl, h2, h1.once, good_faces (gr := { gr with vertices := vs }) h1, i3, i2, fun h => absurd hne h, by simp [hf], by simp [hne]⟩
    · obtain ⟨pvec, m1, m2, m3, m4⟩ := (makePvector_spec (gr := { gr with vertices := vs }) h1 hne).2 fun f hf he => hno f ((edgeCount_one h1 h2 f).1 he)
      rw [m1, Outcome.ok_bind]
      exact ⟨_, _, _, rfl, h2, h1.once, good_faces (gr := { gr with vertices := vs }) h1, i3, i2, fun _ => m2, m3, m4⟩
  have htop : topology g data = analyse gs := by unfold topology; rw [hc, Outcome.ok_bind]
  rw [htop]
  unfold analyse
  have hmem : ∀ k gr, (k, gr) ∈ ((List.range 65536).filterMap fun k => (gs k).map fun gr => (k, gr)) ↔ gs k = some gr := by
    intro k gr
    rw [List.mem_filterMap]
    constructor
    · rintro ⟨k', -, h⟩
      obtain ⟨gr', e1, e2⟩ := Option.map_eq_some_iff.1 h
      obtain ⟨rfl, rfl⟩ := Prod.mk.inj e2
      exact e1
    · intro h
      exact ⟨k, List.mem_range.2 (hv k gr h).2, by rw [h]; rfl⟩
  have hnd : (((List.range 65536).filterMap fun k => (gs k).map fun gr => (k, gr)).map Prod.fst).Nodup := by
    rw [List.map_filterMap]
    refine List.Nodup.filterMap ?_ List.nodup_range
    intro a a' b hb hb'
    simp only [Option.map_map, Option.mem_def, Option.map_eq_some_iff, Function.comp] at hb hb'
    obtain ⟨_, -, h1⟩ := hb
    obtain ⟨_, -, h2⟩ := hb'
    exact h1.trans h2.symm
  generalize (List.range 65536).filterMap (fun k => (gs k).map fun gr => (k, gr)) = L at hmem hnd
  constructor
  · rintro ⟨k, f, hf⟩
    have hksome : ∃ gr, gs k = some gr := by
      obtain ⟨f', ⟨hne, n, hn, ht⟩, -⟩ := hf
      have h1 := hs k
      cases hx : gs k with
      | some gr => exact ⟨gr, rfl⟩
      | none =>
        exfalso
        have : ∀ a b, a < b → Touching g grain n k a b → False := by
          intro a b hab ht
          have := (h1.2 a b hab).2 ⟨n, hn, ht⟩
          unfold edgesAt at this
          rw [hx] at this
          simp at this
        rcases Nat.lt_or_gt_of_ne hne with h | h
        · exact this _ _ h ht.symm
        · exact this _ _ h ht
    obtain ⟨gr, hx⟩ := hksome
    have hin : ∃ e ∈ L, ∃ f, OneEdge g grain e.1 f := ⟨(k, gr), (hmem k gr).2 hx, f, hf⟩
    have hL : ∀ e ∈ L, gs e.1 = some e.2 := fun e he => (hmem e.1 e.2).1 he
    clear hnd hmem
    have key : ∀ (M : List (Nat × Grain α)), (∃ e ∈ M, ∃ f, OneEdge g grain e.1 f) → (∀ e ∈ M, gs e.1 = some e.2) → ∀ out : List (Nat × Grain α × List Nat),
        M.foldlM (fun out e => (computeTopology e.2).bind fun r => .ok (out ++ [(e.1, r.1, r.2.1)])) out = Outcome.abort 134 := by
      intro M
      induction M with
      | nil => rintro ⟨e, he, -⟩; simp at he
      | cons e M ih =>
        intro hin hL out
        rw [List.foldlM_cons, Outcome.bind_eq]
        by_cases h1 : ∃ f, OneEdge g grain e.1 f
        · rw [hone e.1 e.2 (hL e (by simp)) h1]; rfl
        · obtain ⟨gr', pvec, nums, e1, -⟩ := hnone e.1 e.2 (hL e (by simp)) fun f h => h1 ⟨f, h⟩
          rw [e1, Outcome.ok_bind, Outcome.ok_bind]
          refine ih ?_ (fun e' h => hL e' (by simp [h])) _
          obtain ⟨e', he', hf'⟩ := hin
          rcases List.mem_cons.1 he' with rfl | h
          · exact absurd hf' h1
          · exact ⟨e', h, hf'⟩
    exact key L hin hL []
  · intro hno
    have hL : ∀ e ∈ L, gs e.1 = some e.2 := fun e he => (hmem e.1 e.2).1 he
    have key : ∀ (M : List (Nat × Grain α)), (∀ e ∈ M, gs e.1 = some e.2) → ∀ out : List (Nat × Grain α × List Nat), (∀ e ∈ out, Described g grain e.1 e.2.1 e.2.2) →
        ∃ out', M.foldlM (fun out e => (computeTopology e.2).bind fun r => .ok (out ++ [(e.1, r.1, r.2.1)])) out = Outcome.ok out' ∧ (∀ e ∈ out', Described g grain e.1 e.2.1 e.2.2) ∧
          out'.map Prod.fst = out.map Prod.fst ++ M.map Prod.fst := by
      intro M
      induction M with
      | nil => intro _ out h; exact ⟨out, rfl, h, by simp⟩
      | cons e M ih =>
        intro hM out hout
        obtain ⟨gr', pvec, nums, e1, hdsc⟩ := hnone e.1 e.2 (hM e (by simp)) (hno e.1)
        obtain ⟨out', o1, o2, o3⟩ := ih (fun e' h => hM e' (by simp [h])) (out ++ [(e.1, gr', pvec)]) (by
          intro x hx
          rcases List.mem_append.1 hx with h | h
          · exact hout x h
          · rw [List.mem_singleton] at h; subst h; exact hdsc)
        refine ⟨out', ?_, o2, by rw [o3]; simp⟩
        rw [List.foldlM_cons, Outcome.bind_eq, e1, Outcome.ok_bind, Outcome.ok_bind]
        exact o1
    obtain ⟨out, o1, o2, o3⟩ := key L hL [] (by simp)
    refine ⟨out, o1, o2, by rw [o3]; simpa using hnd, fun n hn => ?_⟩
    have hsome := (met_iff hg h0 hk (le_refl _) hc (toId (grain n))).2 ⟨n, hn, Or.inl rfl⟩
    obtain ⟨gr, hx⟩ := Option.isSome_iff_exists.1 hsome
    rw [o3]
    exact List.mem_append_right _ (List.mem_map_of_mem ((hmem _ gr).2 hx))

/-! ## Planes -/

def verticesAt (gs : Grains α) (k : Nat) : List Ids := ((gs k).map Grain.vertices).getD []

omit [LinearOrder α] in
theorem verticesAt_masses (c : Sparse.Cell α) (major : Nat) (x : Nat → Int) (gs : Grains α) (k : Nat) : verticesAt (masses c major x gs) k = verticesAt gs k := by
  have one : ∀ (i : Nat) (v : α) (gs : Grains α), verticesAt (massAt i v x gs) k = verticesAt gs k := by
    intro i v gs
    unfold verticesAt massAt
    split_ifs with e
    · subst e
      cases gs k <;> simp [Grain.addMass, fresh]
    · rfl
  unfold masses
  have key : ∀ (L : List (Int × α)) (gs : Grains α), verticesAt (L.foldl (fun gs e => if toId e.1 = major then gs else massAt (toId e.1) (Sparse.get c (toId e.1)) x gs) gs) k = verticesAt gs k := by
    intro L
    induction L with
    | nil => intro gs; rfl
    | cons e L ih =>
      intro gs
      rw [List.foldl_cons, ih]
      split_ifs
      · rfl
      · exact one _ _ _
  rw [key, one]

omit [Field α] [LinearOrder α] in
theorem classify2_ok {major : Nat} {s : Ids} {x : Nat → Int} {gs : Grains α} (h : (gs major).isSome) (h2 : s.length = 2 → ∀ j ∈ s, (gs j).isSome) :
    ∃ gs', classify2 major s x gs = .ok gs' ∧
      (∀ k, edgesAt gs' k = if k = major ∧ s.length = 1 then pushEdge s x (edgesAt gs k) else edgesAt gs k) ∧
      ∀ k v, v ∈ verticesAt gs' k ↔ v ∈ verticesAt gs k ∨ (k ∈ s ∧ s.length = 2 ∧ v = s) := by
  unfold classify2
  by_cases l1 : s.length = 1
  · rw [if_pos l1]
    obtain ⟨gr, e, e1⟩ := modify_some (f := Grain.updateEdges s x) h
    refine ⟨_, e1, fun k => ?_, fun k v => ?_⟩
    · unfold edgesAt
      by_cases hk : k = major
      · subst hk; simp [l1, e, Grain.updateEdges]
      · simp [hk]
    · have : verticesAt (fun k => if k = major then some (Grain.updateEdges s x gr) else gs k) k = verticesAt gs k := by
        unfold verticesAt
        by_cases hk : k = major
        · subst hk; simp [e, Grain.updateEdges]
        · simp [hk]
      rw [this]
      simp [l1]
  · rw [if_neg l1]
    by_cases l2 : s.length = 2
    · rw [if_pos l2]
      have key : ∀ (L : Ids) (gs : Grains α), (∀ j ∈ L, (gs j).isSome) → ∃ gs', L.foldlM (fun gs j => modify j (Grain.updateVertices s) gs) gs = Outcome.ok gs' ∧
          (∀ k, edgesAt gs' k = edgesAt gs k) ∧ ∀ k v, v ∈ verticesAt gs' k ↔ v ∈ verticesAt gs k ∨ (k ∈ L ∧ v = s) := by
        intro L
        induction L with
        | nil => intro gs _; exact ⟨gs, rfl, fun _ => rfl, by simp⟩
        | cons i L ih =>
          intro gs hL
          obtain ⟨gr, e, e1⟩ := modify_some (f := Grain.updateVertices s) (hL i (by simp))
          obtain ⟨g2, f1, f2, f3⟩ := ih _ (fun j hj => (modify_isSome e1 j).2 (hL j (by simp [hj])))
          refine ⟨g2, ?_, fun k => ?_, fun k v => ?_⟩
          · rw [List.foldlM_cons, e1, Outcome.bind_eq, Outcome.ok_bind]; exact f1
          · rw [f2]
            unfold edgesAt
            by_cases hk : k = i
            · subst hk; simp [e, Grain.updateVertices]
            · simp [hk]
          · rw [f3]
            have : v ∈ verticesAt (fun k => if k = i then some (Grain.updateVertices s gr) else gs k) k ↔ v ∈ verticesAt gs k ∨ (k = i ∧ v = s) := by
              unfold verticesAt
              by_cases hk : k = i
              · subst hk
                simp only [if_true, e, Option.map_some, Option.getD_some, Grain.updateVertices, true_and]
                exact insertSet_spec.1
              · simp [hk]
            rw [this, List.mem_cons]
            tauto
      obtain ⟨g2, f1, f2, f3⟩ := key s gs (h2 l2)
      exact ⟨g2, f1, fun k => by rw [f2]; simp [l2], fun k v => by rw [f3]; simp [l2]⟩
    · rw [if_neg l2]
      exact ⟨gs, rfl, fun k => by simp [l1], fun k v => by simp [l2]⟩

omit [Field α] [LinearOrder α] in
theorem classify2_ub {major : Nat} {s : Ids} {x : Nat → Int} {gs : Grains α} (hl : s.length = 2) (hn : ∃ j ∈ s, ¬ (gs j).isSome) : classify2 major s x gs = .ub := by
  unfold classify2
  rw [if_neg (by omega), if_pos hl]
  have key : ∀ (L : Ids) (gs : Grains α), (∃ j ∈ L, ¬ (gs j).isSome) → L.foldlM (fun gs j => modify j (Grain.updateVertices s) gs) gs = Outcome.ub := by
    intro L
    induction L with
    | nil => rintro gs ⟨j, hj, -⟩; simp at hj
    | cons i L ih =>
      rintro gs ⟨j, hj, hjn⟩
      rw [List.foldlM_cons, Outcome.bind_eq]
      by_cases hi : (gs i).isSome
      · obtain ⟨gr, e, e1⟩ := modify_some (f := Grain.updateVertices s) hi
        have hjL : j ∈ L := by
          rcases List.mem_cons.1 hj with rfl | h
          · exact absurd hi hjn
          · exact h
        have := ih (fun k => if k = i then some (Grain.updateVertices s gr) else gs k) ⟨j, hjL, fun h => hjn ((modify_isSome e1 j).1 h)⟩
        rw [e1, Outcome.ok_bind]; exact this
      · have : gs i = none := Option.not_isSome_iff_eq_none.1 hi
        unfold modify
        rw [this]
        rfl
  exact key s gs hn

/-- Node `n` of grain `k` touches exactly one other grain, `a`. -/
def TouchingOne (g : Shape) (grain : Int → Nat) (n k a : Nat) : Prop :=
  toId (grain n) = k ∧ ∀ i, i = a ↔ ∃ y, Adjacent g (g.position n) y ∧ grain (g.rawOffset y) ≠ k ∧ i = toId (grain (g.rawOffset y))

/-- **C46.** On a plane the loop over the nodes is undefined exactly if some node touches two other grains and one of them belongs to, and is listed at, no node up to this one.
Otherwise every grain gets an edge for each other grain that is the only one touching one of its nodes, and as vertices the pairs of grains, itself one of them, that are the only ones
touching a node of a third grain. -/
theorem collect2_spec {g : Shape} (hg : g.Wf) (h0 : g.ghosts = 0) (hd : g.dim = 2) {data : Int → Sparse.Cell α} {grain : Int → Nat} (hk : Known g data grain) :
    ((∃ n k a b : Nat, n < g.nodes.toNat ∧ a < b ∧ Touching g grain n k a b ∧ ¬ (Met data grain (n + 1) a ∧ Met data grain (n + 1) b)) → collect g data = .ub) ∧
    ((∀ n k a b : Nat, n < g.nodes.toNat → a < b → Touching g grain n k a b → Met data grain (n + 1) a ∧ Met data grain (n + 1) b) →
      ∃ gs, collect g data = .ok gs ∧
        (∀ k a, [a] ∈ (edgesAt gs k).map Prod.fst ↔ ∃ n : Nat, n < g.nodes.toNat ∧ TouchingOne g grain n k a) ∧
        ∀ k v, v ∈ verticesAt gs k ↔ ∃ n k' a b : Nat, n < g.nodes.toNat ∧ a < b ∧ Touching g grain n k' a b ∧ v = [a, b] ∧ (k = a ∨ k = b)) := by
  -- prefixes
  have hlen2 : ∀ {s : Ids}, Asc s → s.length = 2 → ∃ a b, a < b ∧ s = [a, b] := by
    intro s hs hl
    match s, hl with
    | [a, b], _ => exact ⟨a, b, by simpa [Asc] using hs, rfl⟩
  have htouch : ∀ {n : Nat} {s : Ids} {a b : Nat}, Asc s → a < b → (∀ k, k ∈ s ↔ ∃ y, Adjacent g (g.position n) y ∧ grain (g.rawOffset y) ≠ toId (grain n) ∧ k = toId (grain (g.rawOffset y))) →
      (s = [a, b] ↔ Touching g grain n (toId (grain n)) a b) := by
    intro n s a b hs hab hm
    constructor
    · intro e
      refine ⟨rfl, fun i => ?_⟩
      rw [← hm i, e]; simp
    · rintro ⟨-, h⟩
      apply asc_ext hs (by simp [Asc, hab])
      intro i
      rw [hm i, ← h i]; simp
  have htouch1 : ∀ {n : Nat} {s : Ids} {a : Nat}, Asc s → (∀ k, k ∈ s ↔ ∃ y, Adjacent g (g.position n) y ∧ grain (g.rawOffset y) ≠ toId (grain n) ∧ k = toId (grain (g.rawOffset y))) →
      (s = [a] ↔ TouchingOne g grain n (toId (grain n)) a) := by
    intro n s a hs hm
    constructor
    · intro e
      refine ⟨rfl, fun i => ?_⟩
      rw [← hm i, e]; simp
    · rintro ⟨-, h⟩
      apply asc_ext hs (by simp [Asc])
      intro i
      rw [hm i, ← h i]; simp
  have key : ∀ N : Nat, N ≤ g.nodes.toNat → (∀ n k a b : Nat, n < N → a < b → Touching g grain n k a b → Met data grain (n + 1) a ∧ Met data grain (n + 1) b) →
      ∃ gs, (List.range N).foldlM (node g data) (fun _ => none) = Outcome.ok gs ∧
        (∀ k a, [a] ∈ (edgesAt gs k).map Prod.fst ↔ ∃ n : Nat, n < N ∧ TouchingOne g grain n k a) ∧
        ∀ k v, v ∈ verticesAt gs k ↔ ∃ n k' a b : Nat, n < N ∧ a < b ∧ Touching g grain n k' a b ∧ v = [a, b] ∧ (k = a ∨ k = b) := by
    intro N
    induction N with
    | zero => intro _ _; exact ⟨_, rfl, by simp [edgesAt], by simp [verticesAt]⟩
    | succ N ih =>
      intro hN hall
      obtain ⟨g1, e1, i1, i2⟩ := ih (by omega) fun n k a b hn => hall n k a b (by omega)
      obtain ⟨s, hs, hm, hnode⟩ := node_eq hg h0 hk (show N < g.nodes.toNat by omega) g1
      rw [if_pos hd] at hnode
      obtain ⟨g2, c0, c1, c2⟩ := classify2_ok (s := s) (x := g.position N) (masses_major (data N) (toId (grain N)) (g.position N) g1) (by
        intro hl j hj
        obtain ⟨a, b, hab, e⟩ := hlen2 hs hl
        have hM := hall N _ a b (by omega) hab ((htouch hs hab hm).1 e)
        have hMj : Met data grain (N + 1) j := by
          rw [e] at hj
          simp only [List.mem_cons, List.not_mem_nil, or_false] at hj
          rcases hj with rfl | rfl
          exacts [hM.1, hM.2]
        rw [masses_isSome, met_iff hg h0 hk (by omega) e1]
        obtain ⟨m, hm1, hm2⟩ := hMj
        by_cases hmN : m = N
        · subst hmN; exact Or.inr hm2
        · exact Or.inl ⟨m, by omega, hm2⟩)
      refine ⟨g2, ?_, fun k a => ?_, fun k v => ?_⟩
      · rw [List.range_succ, List.foldlM_append, e1, Outcome.bind_eq, Outcome.ok_bind, List.foldlM_cons, hnode, c0]
        rfl
      · rw [c1 k, (shape_masses (data N) (toId (grain N)) (g.position N) g1 k).1]
        have hbase : (∃ n : Nat, n < N + 1 ∧ TouchingOne g grain n k a) ↔ (∃ n : Nat, n < N ∧ TouchingOne g grain n k a) ∨ TouchingOne g grain N k a := by
          constructor
          · rintro ⟨n, hn, h⟩
            by_cases hnN : n = N
            · subst hnN; exact Or.inr h
            · exact Or.inl ⟨n, by omega, h⟩
          · rintro (⟨n, hn, h⟩ | h)
            · exact ⟨n, by omega, h⟩
            · exact ⟨N, by omega, h⟩
        rw [hbase, ← i1 k a]
        by_cases hc : k = toId (grain N) ∧ s.length = 1
        · rw [if_pos hc]
          have hmem : [a] ∈ (pushEdge s (g.position N) (edgesAt g1 k)).map Prod.fst ↔ [a] ∈ (edgesAt g1 k).map Prod.fst ∨ s = [a] := by
            rw [keys_pushEdge]
            split_ifs with hin
            · exact ⟨Or.inl, fun h => h.elim id fun e => e ▸ hin⟩
            · rw [List.mem_append, List.mem_singleton]; exact or_congr_right eq_comm
          rw [hmem, htouch1 hs hm, hc.1]
        · rw [if_neg hc]
          constructor
          · exact Or.inl
          · rintro (h | h)
            · exact h
            · exfalso
              apply hc
              refine ⟨h.1.symm, ?_⟩
              have hk' := h.1
              subst hk'
              rw [(htouch1 hs hm).2 h]; rfl
      · rw [c2 k v, verticesAt_masses, i2 k v]
        constructor
        · rintro (⟨n, k', a, b, hn, h⟩ | ⟨hks, hl, rfl⟩)
          · exact ⟨n, k', a, b, by omega, h⟩
          · obtain ⟨a, b, hab, e⟩ := hlen2 hs hl
            refine ⟨N, _, a, b, by omega, hab, (htouch hs hab hm).1 e, e, ?_⟩
            rw [e] at hks; simpa using hks
        · rintro ⟨n, k', a, b, hn, hab, ht, rfl, hkab⟩
          by_cases hnN : n = N
          · subst hnN
            have hk' := ht.1
            subst hk'
            have e := (htouch hs hab hm).2 ht
            rw [e]
            exact Or.inr ⟨by simpa using hkab, rfl, rfl⟩
          · exact Or.inl ⟨n, k', a, b, by omega, hab, ht, rfl, hkab⟩
  constructor
  · intro hex
    -- the first such node
    classical
    let P : Nat → Prop := fun n => ∃ k a b : Nat, n < g.nodes.toNat ∧ a < b ∧ Touching g grain n k a b ∧ ¬ (Met data grain (n + 1) a ∧ Met data grain (n + 1) b)
    have hP : ∃ n, P n := by obtain ⟨n, k, a, b, h⟩ := hex; exact ⟨n, k, a, b, h⟩
    obtain ⟨k, a, b, hn, hab, ht, hnm⟩ := Nat.find_spec hP
    have hmin : ∀ m, m < Nat.find hP → ¬ P m := fun m hm => Nat.find_min hP hm
    generalize Nat.find hP = n at hn hab ht hnm hmin
    obtain ⟨gs, e1, -⟩ := key n (by omega) (by
      intro m k' a' b' hm hab' ht'
      by_contra hc
      exact hmin m hm ⟨k', a', b', by omega, hab', ht', hc⟩)
    obtain ⟨s, hs, hm, hnode⟩ := node_eq hg h0 hk hn gs
    have hk' := ht.1
    subst hk'
    have hsab := (htouch hs hab hm).2 ht
    have hub : node g data gs n = .ub := by
      rw [hnode, if_pos hd]
      apply classify2_ub (by rw [hsab]; rfl)
      by_contra hcon
      apply hnm
      have hsome : ∀ j ∈ s, Met data grain (n + 1) j := by
        intro j hj
        have hj' : (masses (data n) (toId (grain n)) (g.position n) gs j).isSome := by
          by_contra h; exact hcon ⟨j, hj, h⟩
        rw [masses_isSome, met_iff hg h0 hk (by omega) e1] at hj'
        rcases hj' with ⟨m, hm1, hm2⟩ | h
        · exact ⟨m, by omega, hm2⟩
        · exact ⟨n, by omega, h⟩
      exact ⟨hsome a (by simp [hsab]), hsome b (by simp [hsab])⟩
    unfold collect
    obtain ⟨r, hr⟩ : ∃ r, g.nodes.toNat = n + 1 + r := ⟨g.nodes.toNat - (n + 1), by omega⟩
    rw [hr, List.range_add, List.foldlM_append, List.range_succ, List.foldlM_append, e1, Outcome.bind_eq, Outcome.bind_eq, Outcome.ok_bind, List.foldlM_cons, hub, Outcome.bind_eq, Outcome.ub_bind,
      Outcome.ub_bind]
  · intro hall
    exact key _ (le_refl _) hall

/-! ## Centroids of excluded grains -/

theorem estimateCentroid_any [IsStrictOrderedRing α] (dim : Nat) {gr : Grain α} (hg : ∀ e ∈ gr.edges, e.2 ≠ []) :
    (estimateCentroid dim gr).volume = gr.volume ∧ (estimateCentroid dim gr).faces = gr.faces ∧ (estimateCentroid dim gr).edges = gr.edges ∧ (estimateCentroid dim gr).vertices = gr.vertices := by
  unfold estimateCentroid
  by_cases h1 : gr.edges.length = 0
  · rw [if_pos h1]; exact ⟨rfl, rfl, rfl, rfl⟩
  · rw [if_neg h1]
    by_cases h2 : dim = 3 ∧ gr.faces.length = 0
    · rw [if_pos h2]; exact ⟨rfl, rfl, rfl, rfl⟩
    · rw [if_neg h2]
      dsimp only
      have key : ∀ (w : α) (L : List (Nat → Int)) (q : Grain α), (L.foldl (fun g' x => g'.addMass w (fold gr dim x)) q).volume = q.volume + L.length * w ∧
          (L.foldl (fun g' x => g'.addMass w (fold gr dim x)) q).faces = q.faces ∧ (L.foldl (fun g' x => g'.addMass w (fold gr dim x)) q).edges = q.edges ∧
          (L.foldl (fun g' x => g'.addMass w (fold gr dim x)) q).vertices = q.vertices := by
        intro w L
        induction L with
        | nil => intro q; simp
        | cons x L ih =>
          intro q
          rw [List.foldl_cons]
          obtain ⟨i1, i2, i3, i4⟩ := ih (q.addMass w (fold gr dim x))
          refine ⟨?_, i2, i3, i4⟩
          rw [i1, List.length_cons]
          unfold Grain.addMass
          push_cast
          ring
      obtain ⟨k1, k2, k3, k4⟩ := key (gr.volume / ((points gr).length : α)) (points gr) { gr with volume := 0, moment := fun _ => 0 }
      refine ⟨?_, k2, k3, k4⟩
      rw [k1]
      have hp : ((points gr).length : α) ≠ 0 := by
        obtain ⟨e, he⟩ := List.exists_mem_of_ne_nil gr.edges (by intro h; simp [h] at h1)
        obtain ⟨x, hx⟩ := List.exists_mem_of_ne_nil _ (hg e he)
        have : 0 < (points gr).length := List.length_pos_of_mem (List.mem_flatMap.2 ⟨e, he, hx⟩)
        have : (points gr).length ≠ 0 := by omega
        exact_mod_cast this
      dsimp only
      field_simp
      ring

/-- **C46.** `estimateCentroid` changes neither the volume nor faces, edges and vertices. -/
theorem estimateCentroid_keeps [IsStrictOrderedRing α] (dim : Nat) {gr : Grain α} (hg : Good gr.edges gr.faces) :
    (estimateCentroid dim gr).volume = gr.volume ∧ (estimateCentroid dim gr).faces = gr.faces ∧ (estimateCentroid dim gr).edges = gr.edges ∧ (estimateCentroid dim gr).vertices = gr.vertices :=
  estimateCentroid_any dim fun e he => by
    obtain ⟨-, -, -, -, -, -, hne⟩ := hg.pair e he
    exact hne

end

/-! ## Cases -/

/-- A row of nodes in three dimensions. -/
def rowShape (n : Int) : Shape := { dim := 3, x0 := fun _ => 0, x1 := fun j => if j = 0 then n else 1, b0 := fun _ => .neumann, b1 := fun _ => .neumann, ghosts := 0 }

/-- Cells with a single grain each. -/
def single (ids : List Nat) (p : Int) : Sparse.Cell ℚ := [((ids.getD p.toNat 0 : Nat), 1)]

theorem rowShape_wf {n : Int} (h : 0 < n) : (rowShape n).Wf :=
  ⟨Nat.zero_lt_succ 2, fun j _ => by show (0 : Int) < (if j = 0 then n else 1); split_ifs <;> omega, le_refl (0 : Int)⟩

/-- **C46.** Three grains in a row are enough to fail the assertion: the grain in the middle has two faces and the single edge between them. -/
theorem row_aborts : topology (rowShape 3) (single [1, 2, 3]) = .abort 134 := by
  have hk : Known (rowShape 3) (single [1, 2, 3]) (fun p => [1, 2, 3].getD p.toNat 0) := by unfold Known; decide +kernel
  apply (topology_spec (rowShape_wf (by omega)) rfl rfl hk).1
  obtain ⟨gs, hc, hs⟩ := collect3_spec (rowShape_wf (by omega)) rfl (by decide) hk
  refine ⟨2, 1, (edgeCount_one (hs 2).1 (hs 2).2 1).1 ?_⟩
  have hcount : (collect (rowShape 3) (single [1, 2, 3])).bind (fun gs => .ok (edgeCount (edgesAt gs 2) 1)) = .ok 1 := by decide +kernel
  rw [hc, Outcome.ok_bind] at hcount
  exact Outcome.ok.inj hcount

/-- The grains 2, 1, 3, 1, 4, 1, 2 in a row: the hypotheses for a complete run hold; grain 1 has three faces with two edges each. -/
example : (∀ k f, ¬ OneEdge (rowShape 7) (fun p => [2, 1, 3, 1, 4, 1, 2].getD p.toNat 0) k f) ∧
    (collect (rowShape 7) (single [2, 1, 3, 1, 4, 1, 2])).bind (fun gs => ((gs 1).elim .ub fun gr => (computeTopology gr).bind fun r => .ok (r.1.vertices, r.2.1))) = .ok ([[2, 3, 4]], [0, 0, 3]) := by
  refine ⟨?_, by decide +kernel⟩
  have hk : Known (rowShape 7) (single [2, 1, 3, 1, 4, 1, 2]) (fun p => [2, 1, 3, 1, 4, 1, 2].getD p.toNat 0) := by unfold Known; decide +kernel
  obtain ⟨gs, hc, hs⟩ := collect3_spec (rowShape_wf (by omega)) rfl (by decide) hk
  intro k f hf
  have h1 := (edgeCount_one (hs k).1 (hs k).2 f).2 hf
  have hedges : (collect (rowShape 7) (single [2, 1, 3, 1, 4, 1, 2])).bind (fun gs => .ok ((List.range 5).map fun k => (edgesAt gs k).map Prod.fst)) =
      .ok [[], [[2, 3], [3, 4], [2, 4]], [], [], []] := by decide +kernel
  rw [hc, Outcome.ok_bind] at hedges
  have hedges := Outcome.ok.inj hedges
  have hcnt : edgeCount (edgesAt gs k) f = (((edgesAt gs k).map Prod.fst).filter fun e => decide (f ∈ e)).length := by
    unfold edgeCount
    rw [List.filter_map, List.length_map]; rfl
  rw [hcnt] at h1
  by_cases hk5 : k < 5
  · have hL : (edgesAt gs k).map Prod.fst = [[], [[2, 3], [3, 4], [2, 4]], [], [], []].getD k [] := by
      rw [← hedges, List.getD_eq_getElem?_getD, List.getElem?_map, List.getElem?_range hk5]; rfl
    rw [hL] at h1
    have hk5' : k = 0 ∨ k = 1 ∨ k = 2 ∨ k = 3 ∨ k = 4 := by omega
    rcases hk5' with rfl | rfl | rfl | rfl | rfl
    · simp at h1
    · by_cases f2 : f = 2
      · subst f2; simp at h1
      · by_cases f3 : f = 3
        · subst f3; simp at h1
        · by_cases f4 : f = 4
          · subst f4; simp at h1
          · simp [f2, f3, f4] at h1
    · simp at h1
    · simp at h1
    · simp at h1
  · have hnone : gs k = none := by
      rw [← Option.not_isSome_iff_eq_none, met_iff (rowShape_wf (by omega)) rfl hk (le_refl _) hc]
      rintro ⟨m, hm, h⟩
      have hm7 : m < 7 := hm
      have : k < 5 := by
        have hall : ∀ m < 7, toId (([2, 1, 3, 1, 4, 1, 2].getD ((m : Nat) : Int).toNat 0 : Nat)) < 5 ∧ ∀ e ∈ single [2, 1, 3, 1, 4, 1, 2] (m : Nat), toId e.1 < 5 := by decide +kernel
        rcases h with h | ⟨e, he, h⟩
        · rw [h]; exact (hall m hm7).1
        · rw [← h]; exact (hall m hm7).2 e he
      omega
    unfold edgesAt at h1
    rw [hnone] at h1
    simp at h1

def squareShape : Shape := { dim := 2, x0 := fun _ => 0, x1 := fun _ => 2, b0 := fun _ => .neumann, b1 := fun _ => .neumann, ghosts := 0 }

/-- **C46.** Four nodes on a plane are enough for undefined behaviour: the first node touches grains 2 and 3, neither of which has been met. -/
theorem square_undefined : collect squareShape (single [1, 2, 3, 3]) = .ub := by
  have h : (collect squareShape (single [1, 2, 3, 3])).bind (fun _ => .ok ()) = .ub := by decide +kernel
  cases hc : collect squareShape (single [1, 2, 3, 3]) with
  | ub => rfl
  | abort c => rw [hc] at h; cases h
  | ok gs => rw [hc] at h; cases h

/-- With all grains listed at every node the same picture is analysed. -/
example : (collect squareShape (fun p => [(1, if p = 0 then 1 else 0), (2, if p = 1 then 1 else 0), (3, if 2 ≤ p then 1 else 0)] : Int → Sparse.Cell ℚ)).bind
    (fun gs => .ok ((List.range 4).map fun k => verticesAt gs k)) = .ok [[], [[1, 3], [1, 2]], [[2, 3], [1, 2]], [[2, 3], [1, 3]]] := by decide +kernel

/-- **C46.** The estimated centroid of a grain that does not wrap around can lie outside of it: points at 10 and 20, centroid at 5. -/
theorem centroid_outside :
    let gr : Grain ℚ := ⟨2, fun _ => 0, [1, 2], [([1, 2], [fun _ => 10, fun _ => 20])], []⟩
    (estimateCentroid 3 gr).moment 0 / (estimateCentroid 3 gr).volume = 5 := by decide +kernel

end MMSP.Topology
