import Verif.TopologyTableProps
/-!
# mmsp2topo from the grid to the table (C86)
-/

namespace MMSP.Topology

section
variable {α : Type} [Field α] [LinearOrder α]

/-! ## The list of grains -/

omit [Field α] [LinearOrder α] in
theorem mem_entries {gs : Grains α} (hk : ∀ k gr, gs k = some gr → k < 65536) {e : Entry α} : e ∈ entries gs ↔ gs e.key = some e.grain ∧ e.excluded = false ∧ e.pvec = [] := by
  rw [entries, List.mem_filterMap]
  constructor
  · rintro ⟨k, -, h⟩
    obtain ⟨gr, h1, rfl⟩ := Option.map_eq_some_iff.1 h
    exact ⟨h1, rfl, rfl⟩
  · rintro ⟨h1, h2, h3⟩
    refine ⟨e.key, List.mem_range.2 (hk _ _ h1), ?_⟩
    rw [h1]
    obtain ⟨k, gr, x, p⟩ := e
    simp only at h2 h3
    simp [h2, h3]

omit [Field α] [LinearOrder α] in
theorem entries_ascending (gs : Grains α) : ((entries gs).map Entry.key).Pairwise (· < ·) := by
  rw [entries, List.map_filterMap]
  refine List.Pairwise.filterMap _ (R := (· < ·)) ?_ List.pairwise_lt_range
  intro a a' h b hb b' hb'
  simp only [Option.map_map, Option.mem_def, Option.map_eq_some_iff, Function.comp] at hb hb'
  obtain ⟨_, -, rfl⟩ := hb
  obtain ⟨_, -, rfl⟩ := hb'
  exact h

/-! ## Three dimensions -/

/-- The sum of the field of grain `k`. -/
def Vol (g : Shape) (data : Int → Sparse.Cell α) (k : Nat) : α := ∑ n ∈ Finset.range g.nodes.toNat, Sparse.get (data n) k

/-- Its first moment. -/
def Mom (g : Shape) (data : Int → Sparse.Cell α) (k d : Nat) : α := ∑ n ∈ Finset.range g.nodes.toNat, Sparse.get (data n) k * (g.position n d : α)

/-- The grain has a node or a value at some node. -/
def Occurs (g : Shape) (data : Int → Sparse.Cell α) (grain : Int → Nat) (k : Nat) : Prop := ∃ n : Nat, n < g.nodes.toNat ∧ (k = toId (grain n) ∨ (k : Int) ∈ Sparse.keys (data n))

/-- Grains `a` and `b` are, at some node of `k`, the only ones touching it. -/
def Meets (g : Shape) (grain : Int → Nat) (k a b : Nat) : Prop := ∃ n : Nat, n < g.nodes.toNat ∧ Touching g grain n k a b

/-- Three neighbours of `k` meet pairwise. -/
def Corner (g : Shape) (grain : Int → Nat) (k : Nat) (v : Ids) : Prop :=
  ∃ a b c, v = [a, b, c] ∧ a < b ∧ b < c ∧ Meets g grain k a b ∧ Meets g grain k b c ∧ Meets g grain k a c

/-- **C86.** `mmsp2topo` on a three-dimensional grid without a face of a single edge (C46): undefined if a grain with an edge has volume zero; otherwise every row has as many columns
as the first line, the rows are in the order of the grains, the first part has those of volume at least 1 with two corners, the second part the smaller ones with an edge, and the
volumes are the sums of the field. The others are not in the table. -/
theorem mmsp2topo3 [IsStrictOrderedRing α] {g : Shape} (hg : g.Wf) (h0 : g.ghosts = 0) (hd : g.dim = 3) (dx : Nat → α) (toInt : α → Int) {data : Int → Sparse.Cell α} {grain : Int → Nat}
    (hk : Known g data grain) (hc : ∀ n : Nat, n < g.nodes.toNat → Fits (data n)) (hno : ∀ k f, ¬ OneEdge g grain k f) :
    ((∃ k a b, a < b ∧ Meets g grain k a b ∧ Vol g data k = 0) → mmsp2topo g dx toInt data = .ub) ∧
    ((∀ k a b, a < b → Meets g grain k a b → Vol g data k ≠ 0) → ∃ t, mmsp2topo g dx toInt data = .ok t ∧
      (∀ r ∈ t.bulkRows ++ t.otherRows, r.2.length = t.columns ∧ r.2[0]? = some (.num r.1) ∧ r.2[4]? = some (.val (Vol g data r.1))) ∧
      (∀ r ∈ t.bulkRows, ∀ d < 3, r.2[d + 1]? = some (.num (toInt (Mom g data r.1 d / Vol g data r.1)))) ∧
      (t.bulkRows.map Prod.fst).Pairwise (· < ·) ∧ (t.otherRows.map Prod.fst).Pairwise (· < ·) ∧
      (∀ k, k ∈ t.bulkRows.map Prod.fst ↔ Occurs g data grain k ∧ 1 ≤ Vol g data k ∧ ∃ v w, v ≠ w ∧ Corner g grain k v ∧ Corner g grain k w) ∧
      (∀ k, k ∈ t.otherRows.map Prod.fst ↔ Vol g data k < 1 ∧ ∃ a b, a < b ∧ Meets g grain k a b)) := by
  classical
  obtain ⟨gs, hcol, hsp⟩ := collect3_spec hg h0 (by omega) hk
  have hv := collect3_vertices (by omega) hcol
  have hvol := volume_spec h0 hk hc hcol
  have hgr : ∀ k gr, gs k = some gr → Good gr.edges gr.faces ∧ (∀ a b, Edge gr.edges a b ↔ a < b ∧ Meets g grain k a b) ∧ gr.volume = Vol g data k ∧
      ∀ j, gr.moment j = Mom g data k j := by
    intro k gr e
    have h1 := hsp k
    have h2 := hvol k
    simp only [edgesAt, facesAt, vol, mom, e, Option.map_some, Option.getD_some] at h1 h2
    refine ⟨h1.1, fun a b => ?_, h2.1, h2.2.1⟩
    constructor
    · rintro ⟨hab, hm⟩; exact ⟨hab, (h1.2 a b hab).1 hm⟩
    · rintro ⟨hab, hm⟩; exact ⟨hab, (h1.2 a b hab).2 hm⟩
  have hmem : ∀ {e : Entry α}, e ∈ entries gs ↔ gs e.key = some e.grain ∧ e.excluded = false ∧ e.pvec = [] := mem_entries fun k gr h => (hv k gr h).2
  have hS : ∀ e ∈ entries gs, Sound e := by
    intro e he
    obtain ⟨h1, h2, -⟩ := hmem.1 he
    obtain ⟨g1, -, -, -⟩ := hgr _ _ h1
    refine ⟨h2, g1, (hv _ _ h1).1, fun f hf hone => hno e.key f ?_⟩
    have h3 := hsp e.key
    simp only [edgesAt, facesAt, h1, Option.map_some, Option.getD_some] at h3
    exact (edgeCount_one h3.1 h3.2 f).1 hone
  have hsome : ∀ k, Occurs g data grain k ↔ ∃ gr, gs k = some gr := fun k => by rw [← Option.isSome_iff_exists, (hvol k).2.2]; rfl
  have hfaces : ∀ k gr, gs k = some gr → (gr.faces ≠ [] ↔ ∃ a b, a < b ∧ Meets g grain k a b) := by
    intro k gr h
    obtain ⟨g1, g2, -, -⟩ := hgr k gr h
    rw [ne_eq, faces_nil_iff g1]
    constructor
    · intro hne
      obtain ⟨e, he⟩ := List.exists_mem_of_ne_nil _ hne
      obtain ⟨a, b, hab, hx, -⟩ := g1.pair e he
      exact ⟨a, b, (g2 a b).1 ⟨hab, hx ▸ List.mem_map_of_mem he⟩⟩
    · rintro ⟨a, b, hm⟩ hn
      have := ((g2 a b).2 hm).2
      rw [hn] at this; simp at this
  have hocc : ∀ k a b, Meets g grain k a b → Occurs g data grain k := by
    rintro k a b ⟨n, hn, ht⟩
    exact ⟨n, hn, Or.inl ht.1.symm⟩
  have htwo : ∀ k gr, gs k = some gr → (TwoVertices gr.edges ↔ ∃ v w, v ≠ w ∧ Corner g grain k v ∧ Corner g grain k w) := by
    intro k gr h
    obtain ⟨-, g2, -, -⟩ := hgr k gr h
    have : ∀ v, Triple gr.edges v ↔ Corner g grain k v := by
      intro v
      constructor
      · rintro ⟨a, b, c, hv, e1, e2, e3⟩
        exact ⟨a, b, c, hv, e1.1, e2.1, ((g2 _ _).1 e1).2, ((g2 _ _).1 e2).2, ((g2 _ _).1 e3).2⟩
      · rintro ⟨a, b, c, hv, h1, h2, e1, e2, e3⟩
        exact ⟨a, b, c, hv, (g2 _ _).2 ⟨h1, e1⟩, (g2 _ _).2 ⟨h2, e2⟩, (g2 _ _).2 ⟨by omega, e3⟩⟩
    unfold TwoVertices
    simp only [this]
  have hprog : mmsp2topo g dx toInt data = table 3 (((List.range g.dim).map dx).prod) toInt (entries gs) := by rw [mmsp2topo, hcol, Outcome.ok_bind, hd]
  obtain ⟨t1, t2⟩ := table3 (((List.range g.dim).map dx).prod) toInt hS
  constructor
  · rintro ⟨k, a, b, hab, hm, hz⟩
    obtain ⟨gr, hgk⟩ := (hsome k).1 (hocc k a b hm)
    rw [hprog]
    refine t1 ⟨⟨k, gr, false, []⟩, hmem.2 ⟨hgk, rfl, rfl⟩, (hfaces k gr hgk).2 ⟨a, b, hab, hm⟩, ?_⟩
    rw [← hz]; exact (hgr k gr hgk).2.2.1
  · intro hnz
    obtain ⟨t, P, N, ht, hcols, ⟨F, hF1, hF2⟩, ⟨G, hG1, hG2⟩, -⟩ := t2 (by
      intro e he hf
      obtain ⟨h1, -, -⟩ := hmem.1 he
      obtain ⟨a, b, hab, hm⟩ := (hfaces _ _ h1).1 hf
      rw [(hgr _ _ h1).2.2.1]; exact hnz _ a b hab hm)
    refine ⟨t, by rw [hprog, ht], ?_, ?_, ?_, ?_, fun k => ?_, fun k => ?_⟩
    · intro r hr
      rcases List.mem_append.1 hr with h | h
      · rw [hF1] at h
        obtain ⟨e, he, rfl⟩ := List.mem_map.1 h
        rw [List.mem_filter, decide_eq_true_eq] at he
        obtain ⟨⟨vs, -, -, hrow⟩, hlen⟩ := hF2 e he.1 he.2
        refine ⟨hlen, ?_, ?_⟩
        · dsimp only; rw [hrow]; rfl
        · dsimp only; rw [hrow, ← (hgr _ _ (hmem.1 he.1).1).2.2.1]; rfl
      · rw [hG1] at h
        obtain ⟨e, he, rfl⟩ := List.mem_map.1 h
        rw [List.mem_filter, decide_eq_true_eq] at he
        obtain ⟨hrow, hlen⟩ := hG2 e he.1 he.2
        refine ⟨hlen, ?_, ?_⟩
        · dsimp only; rw [hrow]; rfl
        · dsimp only; rw [hrow, ← (hgr _ _ (hmem.1 he.1).1).2.2.1]; rfl
    · intro r h d hd
      rw [hF1] at h
      obtain ⟨e, he, rfl⟩ := List.mem_map.1 h
      rw [List.mem_filter, decide_eq_true_eq] at he
      obtain ⟨⟨vs, -, -, hrow⟩, hlen⟩ := hF2 e he.1 he.2
      obtain ⟨-, -, g3, g4⟩ := hgr _ _ (hmem.1 he.1).1
      dsimp only
      rw [hrow, ← g3, ← g4]
      match d, hd with
      | 0, _ => rfl
      | 1, _ => rfl
      | 2, _ => rfl
    · rw [hF1, List.map_map]
      exact (entries_ascending gs).sublist (List.Sublist.map _ List.filter_sublist)
    · rw [hG1, List.map_map]
      exact (entries_ascending gs).sublist (List.Sublist.map _ List.filter_sublist)
    · rw [hF1, List.map_map, List.mem_map]
      constructor
      · rintro ⟨e, he, rfl⟩
        rw [List.mem_filter, decide_eq_true_eq] at he
        obtain ⟨h1, -, -⟩ := hmem.1 he.1
        exact ⟨(hsome _).2 ⟨_, h1⟩, by show 1 ≤ Vol g data e.key; rw [← (hgr _ _ h1).2.2.1]; exact he.2.1, (htwo _ _ h1).1 he.2.2⟩
      · rintro ⟨ho, hv1, h2⟩
        obtain ⟨gr, hgk⟩ := (hsome k).1 ho
        refine ⟨⟨k, gr, false, []⟩, ?_, rfl⟩
        rw [List.mem_filter, decide_eq_true_eq]
        exact ⟨hmem.2 ⟨hgk, rfl, rfl⟩, by rw [(hgr k gr hgk).2.2.1]; exact hv1, (htwo k gr hgk).2 h2⟩
    · rw [hG1, List.map_map, List.mem_map]
      constructor
      · rintro ⟨e, he, rfl⟩
        rw [List.mem_filter, decide_eq_true_eq] at he
        obtain ⟨h1, -, -⟩ := hmem.1 he.1
        exact ⟨by have := he.2.1; rw [(hgr _ _ h1).2.2.1] at this; exact this, (hfaces _ _ h1).1 he.2.2⟩
      · rintro ⟨hv1, a, b, hab, hm⟩
        obtain ⟨gr, hgk⟩ := (hsome k).1 (hocc k a b hm)
        refine ⟨⟨k, gr, false, []⟩, ?_, rfl⟩
        rw [List.mem_filter, decide_eq_true_eq]
        exact ⟨hmem.2 ⟨hgk, rfl, rfl⟩, by rw [(hgr k gr hgk).2.2.1]; exact hv1, (hfaces k gr hgk).2 ⟨a, b, hab, hm⟩⟩

/-! ## Two dimensions -/

omit [Field α] [LinearOrder α] in
theorem sound2_fresh {v : α} {x : Nat → Int} [Field α] : Sound2 ((fresh : Grain α).addMass v x) := ⟨rfl, List.nodup_nil, by intro e he; cases he⟩

omit [LinearOrder α] in
theorem massAt_sound2 (i : Nat) (v : α) (x : Nat → Int) {gs : Grains α} (h : ∀ k gr, gs k = some gr → Sound2 gr ∧ k < 65536) (hi : i < 65536) :
    ∀ k gr, massAt i v x gs k = some gr → Sound2 gr ∧ k < 65536 := by
  intro k gr hk
  unfold massAt at hk
  split_ifs at hk with e
  · subst e
    rw [Option.some_inj] at hk
    subst hk
    refine ⟨?_, hi⟩
    cases hx : gs k with
    | none => exact sound2_fresh
    | some gr' =>
      have := (h k gr' hx).1
      exact ⟨this.noFaces, this.once, this.one⟩
  · exact h k gr hk

omit [LinearOrder α] in
theorem masses_sound2 (c : Sparse.Cell α) {major : Nat} (hm : major < 65536) (x : Nat → Int) {gs : Grains α} (h : ∀ k gr, gs k = some gr → Sound2 gr ∧ k < 65536) :
    ∀ k gr, masses c major x gs k = some gr → Sound2 gr ∧ k < 65536 := by
  unfold masses
  have key : ∀ (L : List (Int × α)) (gs : Grains α), (∀ k gr, gs k = some gr → Sound2 gr ∧ k < 65536) →
      ∀ k gr, L.foldl (fun gs e => if toId e.1 = major then gs else massAt (toId e.1) (Sparse.get c (toId e.1)) x gs) gs k = some gr → Sound2 gr ∧ k < 65536 := by
    intro L
    induction L with
    | nil => intro gs h; exact h
    | cons e L ih =>
      intro gs h
      rw [List.foldl_cons]
      apply ih
      split_ifs
      · exact h
      · exact massAt_sound2 _ _ _ h (toId_lt _)
  exact key c _ (massAt_sound2 _ _ _ h hm)

omit [Field α] [LinearOrder α] in
theorem modify_sound2 {i : Nat} {f : Grain α → Grain α} (hf : ∀ gr, Sound2 gr → Sound2 (f gr)) {gs gs' : Grains α} (hm : modify i f gs = .ok gs')
    (h : ∀ k gr, gs k = some gr → Sound2 gr ∧ k < 65536) : ∀ k gr, gs' k = some gr → Sound2 gr ∧ k < 65536 := by
  unfold modify at hm
  cases hx : gs i with
  | none => rw [hx] at hm; cases hm
  | some gr0 =>
    rw [hx] at hm
    have hm := Outcome.ok.inj hm
    subst hm
    intro k gr hk
    dsimp only at hk
    split_ifs at hk with e
    · rw [Option.some_inj] at hk
      subst hk; subst e
      exact ⟨hf _ (h k gr0 hx).1, (h k gr0 hx).2⟩
    · exact h k gr hk

omit [Field α] [LinearOrder α] in
theorem updateEdges_sound2 (a : Nat) (x : Nat → Int) {gr : Grain α} (h : Sound2 gr) : Sound2 (gr.updateEdges [a] x) := by
  refine ⟨h.noFaces, ?_, fun e he => ?_⟩
  · show ((pushEdge [a] x gr.edges).map Prod.fst).Nodup
    rw [keys_pushEdge]
    split_ifs with hm
    · exact h.once
    · exact List.nodup_append.2 ⟨h.once, by simp, by intro y hy z hz e; rw [List.mem_singleton] at hz; subst hz; subst e; exact hm hy⟩
  · rcases mem_pushEdge he with h' | ⟨h1, h2⟩
    · exact h.one e h'
    · exact ⟨⟨a, h1⟩, h2⟩

/-- The loop over the nodes of a plane. -/
theorem collect2_sound {g : Shape} (hd : g.dim = 2) {data : Int → Sparse.Cell α} {gs : Grains α} (h : collect g data = .ok gs) : ∀ k gr, gs k = some gr → Sound2 gr ∧ k < 65536 := by
  unfold collect at h
  have key : ∀ (L : List Nat) (gs0 : Grains α), (∀ k gr, gs0 k = some gr → Sound2 gr ∧ k < 65536) → L.foldlM (node g data) gs0 = Outcome.ok gs →
      ∀ k gr, gs k = some gr → Sound2 gr ∧ k < 65536 := by
    intro L
    induction L with
    | nil => intro gs0 h0 e; rw [List.foldlM_nil] at e; exact Outcome.ok.inj e ▸ h0
    | cons n L ih =>
      intro gs0 h0 e
      rw [List.foldlM_cons, Outcome.bind_eq] at e
      cases hn : node g data gs0 n with
      | ub => rw [hn] at e; cases e
      | abort c => rw [hn] at e; cases e
      | ok g1 =>
        rw [hn, Outcome.ok_bind] at e
        apply ih g1 _ e
        unfold node at hn
        cases hc : deref g data (g.atNode .serial n) with
        | ub => rw [hc] at hn; cases hn
        | abort c => rw [hc] at hn; cases hn
        | ok c =>
          rw [hc, Outcome.ok_bind] at hn
          cases hi : Sparse.grainId (-1) c with
          | ub => rw [hi] at hn; cases hn
          | abort c => rw [hi] at hn; cases hn
          | ok i =>
            rw [hi, Outcome.ok_bind] at hn
            dsimp only at hn
            cases hs : checkNeighbors g data (toId i) (g.position n) with
            | ub => rw [hs] at hn; cases hn
            | abort c => rw [hs] at hn; cases hn
            | ok s =>
              rw [hs, Outcome.ok_bind, if_pos hd] at hn
              have h1 := masses_sound2 c (toId_lt i) (g.position n) h0
              unfold classify2 at hn
              split_ifs at hn with h2 h3
              · match s, h2 with
                | [a], _ => exact modify_sound2 (fun gr => updateEdges_sound2 a _) hn h1
              · have : ∀ (t : Ids) (ga : Grains α), (∀ k gr, ga k = some gr → Sound2 gr ∧ k < 65536) → t.foldlM (fun gs j => modify j (Grain.updateVertices s) gs) ga = Outcome.ok g1 →
                    ∀ k gr, g1 k = some gr → Sound2 gr ∧ k < 65536 := by
                  intro t
                  induction t with
                  | nil => intro ga ha e; rw [List.foldlM_nil] at e; exact Outcome.ok.inj e ▸ ha
                  | cons j t iht =>
                    intro ga ha e
                    rw [List.foldlM_cons, Outcome.bind_eq] at e
                    cases hm : modify j (Grain.updateVertices s) ga with
                    | ub => rw [hm] at e; cases e
                    | abort c => rw [hm] at e; cases e
                    | ok gb =>
                      rw [hm, Outcome.ok_bind] at e
                      exact iht gb (modify_sound2 (f := Grain.updateVertices s) (fun gr hg => ⟨hg.noFaces, hg.once, hg.one⟩) hm ha) e
                exact this _ _ h1 hn
              · exact Outcome.ok.inj hn ▸ h1
  exact key _ _ (by intro k gr h; cases h) h

/-- `a` is, at some node of `k`, the only grain touching it. -/
def MeetsOne (g : Shape) (grain : Int → Nat) (k a : Nat) : Prop := ∃ n : Nat, n < g.nodes.toNat ∧ TouchingOne g grain n k a

/-- `k` is one of the two grains touching a node of a third. -/
def AtCorner (g : Shape) (grain : Int → Nat) (k : Nat) : Prop := ∃ n k' a b : Nat, n < g.nodes.toNat ∧ a < b ∧ Touching g grain n k' a b ∧ (k = a ∨ k = b)

/-- **C86.** `mmsp2topo` on a plane on which every grain touching a node is met before it (C46): undefined if a grain has volume zero; otherwise the first line has ten columns, but a row of
the first part has a further column for every neighbour, and a row of the second part one less, as its volume stands in the column of the third coordinate. The first part has the grains
of volume at least 1 with a corner and two neighbours, the second part those smaller or without neighbours. The others are not in the table. -/
theorem mmsp2topo2 [IsStrictOrderedRing α] {g : Shape} (hg : g.Wf) (h0 : g.ghosts = 0) (hd : g.dim = 2) (hn : 0 < g.nodes) (dx : Nat → α) (toInt : α → Int) {data : Int → Sparse.Cell α} {grain : Int → Nat}
    (hk : Known g data grain) (hc : ∀ n : Nat, n < g.nodes.toNat → Fits (data n))
    (hmet : ∀ n k a b : Nat, n < g.nodes.toNat → a < b → Touching g grain n k a b → Met data grain (n + 1) a ∧ Met data grain (n + 1) b) :
    ((∃ k, Occurs g data grain k ∧ Vol g data k = 0) → mmsp2topo g dx toInt data = .ub) ∧
    ((∀ k, Occurs g data grain k → Vol g data k ≠ 0) → ∃ t, mmsp2topo g dx toInt data = .ok t ∧ t.columns = 10 ∧
      (∀ r ∈ t.bulkRows, ∃ ns : List Nat, Asc ns ∧ (∀ a, a ∈ ns ↔ MeetsOne g grain r.1 a) ∧ 2 ≤ ns.length ∧ r.2.length = 10 + ns.length ∧
        r.2[0]? = some (.num r.1) ∧ r.2[4]? = some (.val (Vol g data r.1)) ∧ r.2.drop 10 = ns.map fun i : Nat => .num (i : Int)) ∧
      (∀ r ∈ t.otherRows, ∃ ns : List Nat, Asc ns ∧ (∀ a, a ∈ ns ↔ MeetsOne g grain r.1 a) ∧ r.2.length = 9 + ns.length ∧
        r.2[0]? = some (.num r.1) ∧ r.2[3]? = some (.val (Vol g data r.1)) ∧ r.2.drop 9 = ns.map fun i : Nat => .num (i : Int)) ∧
      (t.bulkRows.map Prod.fst).Pairwise (· < ·) ∧ (t.otherRows.map Prod.fst).Pairwise (· < ·) ∧
      (∀ k, k ∈ t.bulkRows.map Prod.fst ↔ Occurs g data grain k ∧ 1 ≤ Vol g data k ∧ AtCorner g grain k ∧ ∃ a b, a ≠ b ∧ MeetsOne g grain k a ∧ MeetsOne g grain k b) ∧
      (∀ k, k ∈ t.otherRows.map Prod.fst ↔ Occurs g data grain k ∧ (Vol g data k < 1 ∨ ∀ a, ¬ MeetsOne g grain k a))) := by
  classical
  obtain ⟨gs, hcol, hed, hve⟩ := (collect2_spec hg h0 hd hk).2 hmet
  have hsd := collect2_sound hd hcol
  have hvol := volume_spec h0 hk hc hcol
  have hgr : ∀ k gr, gs k = some gr → (∀ a, [a] ∈ gr.edges.map Prod.fst ↔ MeetsOne g grain k a) ∧ (gr.vertices ≠ [] ↔ AtCorner g grain k) ∧ gr.volume = Vol g data k := by
    intro k gr e
    have h1 := hed k
    have h2 := hve k
    have h3 := hvol k
    simp only [edgesAt, verticesAt, vol, e, Option.map_some, Option.getD_some] at h1 h2 h3
    refine ⟨h1, ?_, h3.1⟩
    constructor
    · intro hne
      obtain ⟨v, hv⟩ := List.exists_mem_of_ne_nil _ hne
      obtain ⟨n, k', a, b, q1, q2, q3, -, q4⟩ := (h2 v).1 hv
      exact ⟨n, k', a, b, q1, q2, q3, q4⟩
    · rintro ⟨n, k', a, b, q1, q2, q3, q4⟩ hnil
      have := (h2 [a, b]).2 ⟨n, k', a, b, q1, q2, q3, rfl, q4⟩
      rw [hnil] at this; cases this
  have hmem : ∀ {e : Entry α}, e ∈ entries gs ↔ gs e.key = some e.grain ∧ e.excluded = false ∧ e.pvec = [] := mem_entries fun k gr h => (hsd k gr h).2
  have hsome : ∀ k, Occurs g data grain k ↔ ∃ gr, gs k = some gr := fun k => by rw [← Option.isSome_iff_exists, (hvol k).2.2]; rfl
  have hS : ∀ e ∈ entries gs, Sound2 e.grain := fun e he => (hsd _ _ (hmem.1 he).1).1
  have hnames : ∀ e ∈ entries gs, Asc (names e.grain) ∧ (∀ a, a ∈ names e.grain ↔ MeetsOne g grain e.key a) ∧ (names e.grain).length = e.grain.edges.length := by
    intro e he
    obtain ⟨n1, n2, n3⟩ := names_spec (hS e he)
    exact ⟨n1, fun a => by rw [n2, (hgr _ _ (hmem.1 he).1).1], n3⟩
  have hnone : ∀ e ∈ entries gs, (e.grain.edges = [] ↔ ∀ a, ¬ MeetsOne g grain e.key a) := by
    intro e he
    obtain ⟨-, n2, n3⟩ := hnames e he
    rw [← List.length_eq_zero_iff, ← n3, List.length_eq_zero_iff, List.eq_nil_iff_forall_not_mem]
    simp only [n2]
  have htwo : ∀ e ∈ entries gs, (2 ≤ e.grain.edges.length ↔ ∃ a b, a ≠ b ∧ MeetsOne g grain e.key a ∧ MeetsOne g grain e.key b) := by
    intro e he
    obtain ⟨n1, n2, n3⟩ := hnames e he
    rw [← n3]
    constructor
    · intro hl
      match hns : names e.grain, hl with
      | a :: b :: l, _ =>
        rw [hns] at n1 n2
        have : a < b := (List.pairwise_cons.1 n1).1 b (by simp)
        exact ⟨a, b, by omega, (n2 a).1 (by simp), (n2 b).1 (by simp)⟩
    · rintro ⟨a, b, hab, h1, h2⟩
      have h1 := (n2 a).2 h1
      have h2 := (n2 b).2 h2
      match hns : names e.grain with
      | [] => rw [hns] at h1; cases h1
      | [c] => rw [hns, List.mem_singleton] at h1 h2; exact absurd (h1.trans h2.symm) hab
      | c :: d :: l => simp
  have hprog : mmsp2topo g dx toInt data = table 2 (((List.range g.dim).map dx).prod) toInt (entries gs) := by rw [mmsp2topo, hcol, Outcome.ok_bind, hd]
  obtain ⟨t1, t2⟩ := table2 (((List.range g.dim).map dx).prod) toInt (fun e he => (hmem.1 he).2.1) hS
  constructor
  · rintro ⟨k, ho, hz⟩
    obtain ⟨gr, hgk⟩ := (hsome k).1 ho
    rw [hprog]
    exact t1 ⟨⟨k, gr, false, []⟩, hmem.2 ⟨hgk, rfl, rfl⟩, by rw [← hz]; exact (hgr k gr hgk).2.2⟩
  · intro hnz
    obtain ⟨t, ht, hcols, hb, hot, hl, -⟩ := t2 (by
      intro e he
      obtain ⟨h1, -, -⟩ := hmem.1 he
      rw [(hgr _ _ h1).2.2]; exact hnz _ ((hsome _).2 ⟨_, h1⟩))
    have hne : entries gs ≠ [] := by
      obtain ⟨gr, hgk⟩ := (hsome (toId (grain 0))).1 ⟨0, by omega, Or.inl rfl⟩
      exact List.ne_nil_of_mem (a := ⟨_, gr, false, []⟩) (hmem.2 ⟨hgk, rfl, rfl⟩)
    refine ⟨t, by rw [hprog, ht], hcols hne, ?_, ?_, ?_, ?_, fun k => ?_, fun k => ?_⟩
    · intro r h
      rw [hb] at h
      obtain ⟨e, he, rfl⟩ := List.mem_map.1 h
      rw [List.mem_filter, decide_eq_true_eq] at he
      obtain ⟨n1, n2, n3⟩ := hnames e he.1
      refine ⟨names e.grain, n1, n2, by rw [n3]; exact he.2.2.2, by rw [n3]; exact (hl e he.1).1, rfl, ?_, rfl⟩
      rw [← (hgr _ _ (hmem.1 he.1).1).2.2]; rfl
    · intro r h
      rw [hot] at h
      obtain ⟨e, he, rfl⟩ := List.mem_map.1 h
      rw [List.mem_filter, decide_eq_true_eq] at he
      obtain ⟨n1, n2, n3⟩ := hnames e he.1
      refine ⟨names e.grain, n1, n2, by rw [n3]; exact (hl e he.1).2, rfl, ?_, rfl⟩
      rw [← (hgr _ _ (hmem.1 he.1).1).2.2]; rfl
    · rw [hb, List.map_map]
      exact (entries_ascending gs).sublist (List.Sublist.map _ List.filter_sublist)
    · rw [hot, List.map_map]
      exact (entries_ascending gs).sublist (List.Sublist.map _ List.filter_sublist)
    · have hpos : ∀ e : Entry α, 1 ≤ e.grain.vertices.length ↔ e.grain.vertices ≠ [] := fun e => by rw [Nat.one_le_iff_ne_zero, ne_eq, List.length_eq_zero_iff]
      rw [hb, List.map_map, List.mem_map]
      constructor
      · rintro ⟨e, he, rfl⟩
        rw [List.mem_filter, decide_eq_true_eq] at he
        obtain ⟨h1, -, -⟩ := hmem.1 he.1
        obtain ⟨-, g2, g3⟩ := hgr _ _ h1
        exact ⟨(hsome _).2 ⟨_, h1⟩, by show 1 ≤ Vol g data e.key; rw [← g3]; exact he.2.1, g2.1 ((hpos e).1 he.2.2.1), (htwo e he.1).1 he.2.2.2⟩
      · rintro ⟨ho, hv1, hcn, h2⟩
        obtain ⟨gr, hgk⟩ := (hsome k).1 ho
        have hm : (⟨k, gr, false, []⟩ : Entry α) ∈ entries gs := hmem.2 ⟨hgk, rfl, rfl⟩
        refine ⟨⟨k, gr, false, []⟩, ?_, rfl⟩
        rw [List.mem_filter, decide_eq_true_eq]
        obtain ⟨-, g2, g3⟩ := hgr _ _ hgk
        exact ⟨hm, by rw [g3]; exact hv1, (hpos ⟨k, gr, false, []⟩).2 (g2.2 hcn), (htwo _ hm).2 h2⟩
    · rw [hot, List.map_map, List.mem_map]
      constructor
      · rintro ⟨e, he, rfl⟩
        rw [List.mem_filter, decide_eq_true_eq] at he
        obtain ⟨h1, -, -⟩ := hmem.1 he.1
        obtain ⟨-, -, g3⟩ := hgr _ _ h1
        refine ⟨(hsome _).2 ⟨_, h1⟩, he.2.imp (fun h => ?_) fun h => (hnone e he.1).1 h⟩
        rw [g3] at h; exact h
      · rintro ⟨ho, h2⟩
        obtain ⟨gr, hgk⟩ := (hsome k).1 ho
        have hm : (⟨k, gr, false, []⟩ : Entry α) ∈ entries gs := hmem.2 ⟨hgk, rfl, rfl⟩
        refine ⟨⟨k, gr, false, []⟩, ?_, rfl⟩
        rw [List.mem_filter, decide_eq_true_eq]
        obtain ⟨-, -, g3⟩ := hgr _ _ hgk
        exact ⟨hm, h2.imp (fun h => by rw [g3]; exact h) fun h => (hnone _ hm).2 h⟩

/-! ## The span of the phase -/

omit [Field α] in
/-- The step of `span`. -/
theorem span_fold (l : List α) (m : α × α) : let s := l.foldl (fun m phi => if phi < m.1 then (phi, m.2) else if phi > m.2 then (m.1, phi) else m) m
    s.1 ≤ m.1 ∧ m.2 ≤ s.2 ∧ (∀ x ∈ l, s.1 ≤ x) ∧ (s.1 = m.1 ∨ s.1 ∈ l) ∧ (s.2 = m.2 ∨ s.2 ∈ l) ∧
      ∀ a x b, l = a ++ x :: b → (m.1 ≤ x ∨ ∃ y ∈ a, y ≤ x) → x ≤ s.2 := by
  induction l generalizing m with
  | nil => simp
  | cons z l ih =>
    rw [List.foldl_cons]
    have hstep : (if z < m.1 then (z, m.2) else if z > m.2 then (m.1, z) else m).1 = min z m.1 ∧
        (if z < m.1 then (z, m.2) else if z > m.2 then (m.1, z) else m).2 = if z < m.1 then m.2 else max z m.2 := by
      split_ifs with h1 h2
      · exact ⟨(min_eq_left h1.le).symm, rfl⟩
      · exact ⟨(min_eq_right (not_lt.1 h1)).symm, (max_eq_left h2.le).symm⟩
      · exact ⟨(min_eq_right (not_lt.1 h1)).symm, (max_eq_right (not_lt.1 h2)).symm⟩
    obtain ⟨i1, i2, i3, i4, i5, i6⟩ := ih (if z < m.1 then (z, m.2) else if z > m.2 then (m.1, z) else m)
    rw [hstep.1] at i1 i4 i6
    rw [hstep.2] at i2 i5
    refine ⟨i1.trans (min_le_right _ _), ?_, ?_, ?_, ?_, ?_⟩
    · refine le_trans ?_ i2
      split_ifs
      · exact le_rfl
      · exact le_max_right _ _
    · intro x hx
      rcases List.mem_cons.1 hx with rfl | hx
      · exact i1.trans (min_le_left _ _)
      · exact i3 x hx
    · rcases i4 with h | h
      · rcases min_choice z m.1 with h' | h'
        · right; rw [h, h']; simp
        · left; rw [h, h']
      · right; exact List.mem_cons_of_mem _ h
    · clear i6 i4 i3 i1 i2
      generalize (l.foldl _ _) = s at i5 ⊢
      rcases i5 with h | h
      · split_ifs at h with hz
        · exact Or.inl h
        · rcases max_choice z m.2 with h' | h'
          · right; rw [h, h']; simp
          · left; rw [h, h']
      · right; exact List.mem_cons_of_mem _ h
    · intro a x b hab hx
      cases a with
      | nil =>
        rw [List.nil_append, List.cons.injEq] at hab
        obtain ⟨rfl, rfl⟩ := hab
        rcases hx with hx | ⟨y, hy, -⟩
        · refine le_trans ?_ i2
          rw [if_neg (not_lt.2 hx)]; exact le_max_left _ _
        · cases hy
      | cons c a =>
        rw [List.cons_append, List.cons.injEq] at hab
        obtain ⟨rfl, rfl⟩ := hab
        refine i6 a x b rfl ?_
        rcases hx with hx | ⟨y, hy, hyx⟩
        · exact Or.inl ((min_le_right _ _).trans hx)
        · rcases List.mem_cons.1 hy with rfl | hy
          · exact Or.inl ((min_le_left _ _).trans hyx)
          · exact Or.inr ⟨y, hy, hyx⟩

/-- **C86.** The lower end of the span printed is the smallest of 1 and the values of the phases. The upper end is a value or 0, and not below any value that is at least 1 or follows one not
above it. -/
theorem span_spec (phis : List α) : (∀ x ∈ phis, (span phis).1 ≤ x) ∧ (span phis).1 ≤ 1 ∧ ((span phis).1 = 1 ∨ (span phis).1 ∈ phis) ∧ ((span phis).2 = 0 ∨ (span phis).2 ∈ phis) ∧
    ∀ a x b, phis = a ++ x :: b → (1 ≤ x ∨ ∃ y ∈ a, y ≤ x) → x ≤ (span phis).2 := by
  obtain ⟨i1, i2, i3, i4, i5, i6⟩ := span_fold phis (1, 0)
  exact ⟨i3, i1, i4, i5, i6⟩

/-- **C86.** But a phase that decreases from node to node leaves it at 0, however large its values. -/
theorem span_decreasing {phis : List α} (h : (1 :: phis).Pairwise (· > ·)) : (span phis).2 = 0 := by
  have key : ∀ (l : List α) (m : α × α), (m.1 :: l).Pairwise (· > ·) → (l.foldl (fun m phi => if phi < m.1 then (phi, m.2) else if phi > m.2 then (m.1, phi) else m) m).2 = m.2 := by
    intro l
    induction l with
    | nil => intro m _; rfl
    | cons z l ih =>
      intro m hm
      rw [List.foldl_cons, if_pos ((List.pairwise_cons.1 hm).1 z (by simp)), ih _ (List.pairwise_cons.1 hm).2]
  exact key phis (1, 0) h

end

/-- A single value 1/2, and values 3/4, 1/2, 5/8. -/
example : span [(1 / 2 : ℚ)] = (1 / 2, 0) ∧ span [(3 / 4 : ℚ), 1 / 2, 5 / 8] = (1 / 2, 5 / 8) := by
  constructor <;> norm_num [span]

/-! ## The type line -/

/-- **C86.** A file is read if its type line has `grid`, `sparse` and `float` in the right columns, whatever is between and behind them; a line that ends where one of the words would be
ends the program with an exception; all others with a message. -/
theorem accepts_iff (t : List Byte) :
    (accepts t = .ok () ↔ ∃ c d rest, t = FileIO.ascii "grid" ++ c :: FileIO.ascii "sparse" ++ d :: FileIO.ascii "float" ++ rest) ∧
    (accepts t = .abort 134 ↔ t = FileIO.ascii "grid" ∨ ∃ c, t = FileIO.ascii "grid" ++ c :: FileIO.ascii "sparse") ∧ accepts t ≠ .ub := by
  have hsplit : ∀ (n : Nat) (w u : List Byte), u.take n = w → u = w ++ u.drop n := fun n w u h => by rw [← h, List.take_append_drop]
  unfold accepts
  dsimp only
  rw [if_neg (by omega), Outcome.ok_bind, List.drop_zero]
  by_cases h1 : t.take 4 = FileIO.ascii "grid"
  · obtain ⟨u, hu⟩ : ∃ u, t = FileIO.ascii "grid" ++ u := ⟨_, hsplit _ _ _ h1⟩
    rw [if_neg (by simpa using h1)]
    subst hu
    cases u with
    | nil =>
      rw [if_pos (by decide)]
      refine ⟨?_, ?_, ?_⟩
      · constructor
        · intro h; cases h
        · rintro ⟨c, d, rest, h⟩
          have := congrArg List.length h
          simp [FileIO.ascii] at this
      · simp [Outcome.bind]
      · simp [Outcome.bind]
    | cons c u =>
      have hl : ¬ 5 > (FileIO.ascii "grid" ++ c :: u).length := by simp [FileIO.ascii]
      have hdr : (FileIO.ascii "grid" ++ c :: u).drop 5 = u := rfl
      rw [if_neg hl, Outcome.ok_bind, hdr]
      by_cases h2 : u.take 6 = FileIO.ascii "sparse"
      · obtain ⟨v, hv⟩ : ∃ v, u = FileIO.ascii "sparse" ++ v := ⟨_, hsplit _ _ _ h2⟩
        rw [if_neg (by simpa using h2)]
        subst hv
        cases v with
        | nil =>
          rw [if_pos (by simp [FileIO.ascii])]
          refine ⟨?_, ?_, ?_⟩
          · constructor
            · intro h; cases h
            · rintro ⟨c, d, rest, h⟩
              have := congrArg List.length h
              simp [FileIO.ascii] at this
          · constructor
            · intro _; exact Or.inr ⟨c, by simp⟩
            · intro _; rfl
          · simp [Outcome.bind]
        | cons d v =>
          have hl : ¬ 12 > (FileIO.ascii "grid" ++ c :: (FileIO.ascii "sparse" ++ d :: v)).length := by simp [FileIO.ascii]
          have hdr : (FileIO.ascii "grid" ++ c :: (FileIO.ascii "sparse" ++ d :: v)).drop 12 = v := rfl
          rw [if_neg hl, Outcome.ok_bind, hdr]
          have hno : ¬ (FileIO.ascii "grid" ++ c :: (FileIO.ascii "sparse" ++ d :: v) = FileIO.ascii "grid" ∨
              ∃ c', FileIO.ascii "grid" ++ c :: (FileIO.ascii "sparse" ++ d :: v) = FileIO.ascii "grid" ++ c' :: FileIO.ascii "sparse") := by
            rintro (h | ⟨c', h⟩) <;> · have := congrArg List.length h; simp at this
          by_cases h3 : v.take 5 = FileIO.ascii "float"
          · rw [if_neg (by simpa using h3)]
            refine ⟨⟨fun _ => ⟨c, d, v.drop 5, ?_⟩, fun _ => rfl⟩, ⟨fun h => (by cases h), fun h => absurd h hno⟩, by simp⟩
            rw [← h3]
            simp
          · rw [if_pos (by simpa using h3)]
            refine ⟨⟨fun h => (by cases h), ?_⟩, ⟨fun h => by simp at h, fun h => absurd h hno⟩, by simp⟩
            rintro ⟨c', d', rest, h⟩
            exfalso; apply h3
            have := congrArg (fun l => (l.drop 12).take 5) h
            exact this
      · rw [if_pos (by simpa using h2)]
        refine ⟨⟨fun h => (by cases h), ?_⟩, ⟨fun h => by simp at h, ?_⟩, by simp⟩
        · rintro ⟨c', d', rest, h⟩
          exfalso; apply h2
          exact congrArg (fun l => (l.drop 5).take 6) h
        · rintro (h | ⟨c', h⟩)
          · have := congrArg List.length h; simp at this
          · exfalso; apply h2
            exact congrArg (fun l => (l.drop 5).take 6) h
  · rw [if_pos (by simpa using h1)]
    refine ⟨⟨fun h => (by cases h), ?_⟩, ⟨fun h => by simp at h, ?_⟩, by simp⟩
    · rintro ⟨c', d', rest, h⟩
      exfalso; apply h1
      exact congrArg (fun l => l.take 4) h
    · rintro (h | ⟨c', h⟩)
      · exfalso; apply h1
        rw [h]; rfl
      · exfalso; apply h1
        exact congrArg (fun l => l.take 4) h

/-- `grid:sparse:float` is read, and so is `grid sparse_floats`; `grid:sparse:double` and the empty line are refused; `grid:sparse` ends in an exception. -/
example : accepts (FileIO.ascii "grid:sparse:float") = .ok () ∧ accepts (FileIO.ascii "grid sparse_floats") = .ok () ∧ accepts (FileIO.ascii "grid:sparse:double") = .abort (-1) ∧
    accepts [] = .abort (-1) ∧ accepts (FileIO.ascii "grid:sparse") = .abort 134 := by decide

/-! ## Cases -/

/-- A grain of volume 2 between four others that all meet each other. -/
def tetrahedron : Entry ℚ :=
  let p : List (Nat → Int) := [fun _ => 3]
  ⟨7, ⟨2, fun _ => 6, [1, 2, 3, 4], [([1, 2], p), ([1, 3], p), ([1, 4], p), ([2, 3], p), ([2, 4], p), ([3, 4], p)], []⟩, false, []⟩

/-- It is what `table3` is about. -/
example : Sound tetrahedron := by
  refine ⟨rfl, ⟨by decide, ?_, by unfold Asc; decide, by decide⟩, rfl, by decide +kernel⟩
  intro e he
  simp only [tetrahedron, List.mem_cons, List.not_mem_nil, or_false] at he
  rcases he with rfl | rfl | rfl | rfl | rfl | rfl
  · exact ⟨1, 2, by decide⟩
  · exact ⟨1, 3, by decide⟩
  · exact ⟨1, 4, by decide⟩
  · exact ⟨2, 3, by decide⟩
  · exact ⟨2, 4, by decide⟩
  · exact ⟨3, 4, by decide⟩

/-- Its table: 9 + 2 + 4 columns, centre (3, 3, 3), four vertices, four faces, six edges, four faces of three edges. -/
example : (table 3 1 (fun q : ℚ => q.floor) [tetrahedron]).bind (fun t => .ok (t.columns, t.otherRows.length, t.average)) = .ok (15, 0, some 2) ∧
    (table 3 1 (fun q : ℚ => q.floor) [tetrahedron]).bind (fun t => .ok t.bulkRows) =
      .ok [(7, [.num 7, .num 3, .num 3, .num 3, .val 2, .num 4, .num 4, .num 6, .num 2, .num 0, .num 4, .num 1, .num 2, .num 3, .num 4])] := by decide +kernel

/-- Grains on a plane: 5 with two neighbours and a vertex, 6 small. -/
def planeGrains : List (Entry ℚ) :=
  let p : List (Nat → Int) := [fun _ => 3]
  [⟨5, ⟨2, fun _ => 6, [], [([6], p), ([9], p)], [[5, 6]]⟩, false, []⟩, ⟨6, ⟨1 / 2, fun _ => 1, [], [([5], p)], []⟩, false, []⟩]

/-- They are what `table2` is about. -/
example : ∀ e ∈ planeGrains, e.excluded = false ∧ Sound2 e.grain := by
  intro e he
  simp only [planeGrains, List.mem_cons, List.not_mem_nil, or_false] at he
  rcases he with rfl | rfl
  · refine ⟨rfl, rfl, by decide, ?_⟩
    intro e he
    simp only [List.mem_cons, List.not_mem_nil, or_false] at he
    rcases he with rfl | rfl
    · exact ⟨⟨6, rfl⟩, by simp⟩
    · exact ⟨⟨9, rfl⟩, by simp⟩
  · refine ⟨rfl, rfl, by decide, ?_⟩
    intro e he
    simp only [List.mem_cons, List.not_mem_nil, or_false] at he
    subst he
    exact ⟨⟨5, rfl⟩, by simp⟩

/-- Ten columns are named, the rows have twelve and ten, and the volumes are in different columns. -/
example : (table 2 1 (fun q : ℚ => q.floor) planeGrains).bind (fun t => .ok t.columns) = .ok 10 ∧
    (table 2 1 (fun q : ℚ => q.floor) planeGrains).bind (fun t => .ok t.bulkRows) =
      .ok [(5, [.num 5, .num 3, .num 3, .num 0, .val 2, .num 1, .num 0, .num 2, .num (-1), .num 2, .num 6, .num 9])] ∧
    (table 2 1 (fun q : ℚ => q.floor) planeGrains).bind (fun t => .ok (t.otherRows.map fun r => (r.1, r.2.length))) = .ok [(6, 10)] ∧
    (table 2 1 (fun q : ℚ => q.floor) planeGrains).bind (fun t => .ok (t.otherRows.map fun r => r.2[3]?)) = .ok [some (.val (1 / 2))] := by decide +kernel

/-- Three grains on four nodes, all listed at every node. -/
def squareData (p : Int) : Sparse.Cell ℚ := [(1, if p = 0 then 1 else 0), (2, if p = 1 then 1 else 0), (3, if 2 ≤ p then 1 else 0)]

/-- The hypotheses of `mmsp2topo2` hold for them, and all volumes differ from zero. -/
example : let grain : Int → Nat := fun p => if p = 0 then 1 else if p = 1 then 2 else 3
    squareShape.Wf ∧ Known squareShape squareData grain ∧ (∀ n : Nat, n < squareShape.nodes.toNat → Fits (squareData n)) ∧
    (∀ n k a b : Nat, n < squareShape.nodes.toNat → a < b → Touching squareShape grain n k a b → Met squareData grain (n + 1) a ∧ Met squareData grain (n + 1) b) ∧
    ∀ k, Occurs squareShape squareData grain k → Vol squareShape squareData k ≠ 0 := by
  intro grain
  have hrange : ∀ q : Int, ∃ e ∈ squareData 0, toId e.1 = toId (grain q) := by
    intro q
    simp only [grain]
    split_ifs
    · exact ⟨(1, 1), by simp [squareData], rfl⟩
    · exact ⟨(2, 0), by simp [squareData], rfl⟩
    · exact ⟨(3, 0), by simp [squareData], rfl⟩
  refine ⟨⟨by decide, fun j _ => by show (0 : Int) < 2; omega, le_refl (0 : Int)⟩, by unfold Known; decide +kernel, ?_, ?_, ?_⟩
  · intro n _
    refine ⟨?_, ?_⟩
    · unfold Sparse.Ok; simp [squareData, Sparse.keys]
    · intro e he
      simp only [squareData, List.mem_cons, List.not_mem_nil, or_false] at he
      rcases he with rfl | rfl | rfl <;> simp
  · intro n k a b _ _ h
    constructor
    · obtain ⟨y, -, -, hy⟩ := (h.2 a).1 (Or.inl rfl)
      obtain ⟨e, he, h'⟩ := hrange (squareShape.rawOffset y)
      exact ⟨0, by omega, Or.inr ⟨e, he, h'.trans hy.symm⟩⟩
    · obtain ⟨y, -, -, hy⟩ := (h.2 b).1 (Or.inr rfl)
      obtain ⟨e, he, h'⟩ := hrange (squareShape.rawOffset y)
      exact ⟨0, by omega, Or.inr ⟨e, he, h'.trans hy.symm⟩⟩
  · have hall : Vol squareShape squareData 1 ≠ 0 ∧ Vol squareShape squareData 2 ≠ 0 ∧ Vol squareShape squareData 3 ≠ 0 := by
      have : squareShape.nodes.toNat = 4 := by decide
      unfold Vol
      rw [this]
      simp only [Finset.sum_range_succ, Finset.sum_range_zero]
      decide +kernel
    rintro k ⟨n, hn, h⟩
    have hk : k = 1 ∨ k = 2 ∨ k = 3 := by
      rcases h with h | h
      · simp only [grain] at h
        split_ifs at h <;> simp [h, toId]
      · simp only [squareData, Sparse.keys, List.map_cons, List.map_nil, List.mem_cons, List.not_mem_nil, or_false] at h
        omega
    rcases hk with rfl | rfl | rfl
    · exact hall.1
    · exact hall.2.1
    · exact hall.2.2

end MMSP.Topology
