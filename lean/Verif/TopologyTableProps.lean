import Verif.TopologyTable
import Verif.TopologyGrains
/-!
# The table of mmsp2topo (C86)
-/

namespace MMSP.Topology

section
variable {α : Type} [Field α] [LinearOrder α]

/-! ## The loops -/

/-- The grains behind the first loop. -/
def marked (e : Entry α) : Entry α := { e with excluded := decide (e.grain.volume < 1) }

theorem bulkLoop_eq (unit : α) {l : List (Entry α)} (h : ∀ e ∈ l, e.excluded = false) :
    bulkLoop unit l = ⟨l.map marked, l.countP fun e => e.grain.volume < 1, l.countP fun e => 1 ≤ e.grain.volume,
      ((l.filter fun e => 1 ≤ e.grain.volume).map fun e => unit * e.grain.volume).sum⟩ := by
  suffices H : ∀ s : Bulk α, l.foldl (bulkStep unit) s = ⟨s.out ++ l.map marked, s.small + l.countP fun e => e.grain.volume < 1, s.bulk + l.countP fun e => 1 ≤ e.grain.volume,
      s.total + ((l.filter fun e => 1 ≤ e.grain.volume).map fun e => unit * e.grain.volume).sum⟩ by
    rw [bulkLoop, H]; simp
  induction l with
  | nil => intro s; simp
  | cons e l ih =>
    intro s
    have he := h e (by simp)
    rw [List.foldl_cons, ih (fun x hx => h x (List.mem_cons_of_mem _ hx))]
    by_cases hv : e.grain.volume < 1
    · have hm : marked e = { e with excluded := true } := by simp [marked, hv]
      simp [bulkStep, he, hv, hm, not_le.2 hv]
      omega
    · have hm : marked e = e := by simp [marked, hv, ← he]
      simp [bulkStep, he, hv, hm, not_lt.1 hv, add_assoc]
      omega

/-- The analysis of one grain. -/
def compute (dim : Nat) (gr : Grain α) : Outcome (Grain α × List Nat × List Int) := if dim = 2 then .ok (computeTopology2 gr) else computeTopology gr

/-- The results for one grain that the loops use. -/
structure Result (α : Type) where
  grain : Grain α
  pvec : List Nat
  p : Int
  n : Int

/-- The grains behind the second loop. -/
def analysed (f : Entry α → Result α) (e : Entry α) : Entry α := ⟨e.key, (f e).grain, e.excluded || decide ((f e).grain.edges.length = 0), (f e).pvec⟩

theorem analysisLoop_eq {dim : Nat} {l : List (Entry α)} {f : Entry α → Result α} (h : ∀ e ∈ l, ∃ v, compute dim e.grain = .ok ((f e).grain, (f e).pvec, [0, v, (f e).p, (f e).n])) :
    analysisLoop dim l = .ok ⟨l.map (analysed f), l.foldl (fun m e => max m (f e).p) 0, l.foldl (fun m e => max m (f e).n) 0, 0,
      l.countP fun e => (f e).grain.edges.length = 0 ∧ e.excluded = false⟩ := by
  suffices H : ∀ s : Analysis α, l.foldlM (analysisStep dim) s = .ok ⟨s.out ++ l.map (analysed f), l.foldl (fun m e => max m (f e).p) s.maxp, l.foldl (fun m e => max m (f e).n) s.maxN,
      s.noFaces, s.noEdges + l.countP fun e => (f e).grain.edges.length = 0 ∧ e.excluded = false⟩ by
    rw [analysisLoop, H]; simp
  induction l with
  | nil => intro s; simp [pure]
  | cons e l ih =>
    intro s
    obtain ⟨v, hv⟩ := h e (by simp)
    rw [List.foldlM_cons, analysisStep]
    rw [compute] at hv
    rw [hv, Outcome.ok_bind]
    have hmax : ∀ a b : Int, (if a > b then a else b) = max b a := fun a b => by
      rcases lt_or_ge b a with h | h
      · rw [if_pos h, max_eq_right h.le]
      · rw [if_neg (not_lt.2 h), max_eq_left h]
    dsimp only
    rw [Outcome.bind_eq, Outcome.ok_bind, ih (fun x hx => h x (List.mem_cons_of_mem _ hx))]
    have h01 : ((0 : Int) = -1) = False := by simp
    simp only [h01, decide_false, Bool.false_and, Bool.false_eq_true, if_false, hmax, List.foldl_cons, List.map_cons, Bool.toNat_false, Nat.add_zero, List.countP_cons]
    by_cases hx : e.excluded <;> by_cases hy : (f e).grain.edges.length = 0 <;> simp [analysed, hx, hy, Nat.add_assoc, Nat.add_comm]

omit [Field α] [LinearOrder α] in
theorem le_foldl_max {l : List (Entry α)} (w : Entry α → Int) : ∀ m : Int, m ≤ l.foldl (fun m e => max m (w e)) m ∧ ∀ e ∈ l, w e ≤ l.foldl (fun m e => max m (w e)) m := by
  induction l with
  | nil => intro m; simp
  | cons a l ih =>
    intro m
    obtain ⟨h1, h2⟩ := ih (max m (w a))
    refine ⟨le_trans (le_max_left _ _) h1, fun e he => ?_⟩
    rcases List.mem_cons.1 he with rfl | he
    · exact le_trans (le_max_right _ _) h1
    · exact h2 e he

omit [Field α] [LinearOrder α] in
theorem printLoop_eq {f : Entry α → Outcome (Option (List (Col α)))} {post : Entry α → Entry α} (hk : ∀ e, (post e).key = e.key) {l : List (Entry α)} {h : Entry α → Option (List (Col α))}
    (hf : ∀ e ∈ l, f (post e) = .ok (h e)) : printLoop f (l.map post) = .ok (l.filterMap fun e => (h e).map fun r => (e.key, r)) := by
  suffices H : ∀ out, (l.map post).foldlM (printStep f) out = Outcome.ok (out ++ l.filterMap fun e => (h e).map fun r => (e.key, r)) by rw [printLoop, H]; simp
  induction l with
  | nil => intro out; simp [pure]
  | cons e l ih =>
    intro out
    rw [List.map_cons, List.foldlM_cons, printStep, hf e (by simp), Outcome.ok_bind]
    cases he : h e with
    | none => simp only [Outcome.bind_eq, Outcome.ok_bind]; rw [ih fun x hx => hf x (List.mem_cons_of_mem _ hx)]; simp [he]
    | some r => simp only [Outcome.bind_eq, Outcome.ok_bind]; rw [ih fun x hx => hf x (List.mem_cons_of_mem _ hx)]; simp [he, hk]

omit [Field α] [LinearOrder α] in
theorem printLoop_ub {f : Entry α → Outcome (Option (List (Col α)))} {l : List (Entry α)} (hf : ∀ e ∈ l, (∃ r, f e = .ok r) ∨ f e = .ub) (hu : ∃ e ∈ l, f e = .ub) :
    printLoop f l = .ub := by
  suffices H : ∀ out, l.foldlM (printStep f) out = Outcome.ub from H []
  induction l with
  | nil => obtain ⟨e, he, -⟩ := hu; simp at he
  | cons e l ih =>
    intro out
    rw [List.foldlM_cons, printStep]
    rcases hf e (by simp) with ⟨r, hr⟩ | hr
    · have hu' : ∃ e ∈ l, f e = .ub := by
        obtain ⟨x, hx, hxu⟩ := hu
        rcases List.mem_cons.1 hx with rfl | hx
        · rw [hr] at hxu; cases hxu
        · exact ⟨x, hx, hxu⟩
      rw [hr, Outcome.ok_bind]
      cases r with
      | none => simp only [Outcome.bind_eq, Outcome.ok_bind]; exact ih (fun x hx => hf x (List.mem_cons_of_mem _ hx)) hu' _
      | some r => simp only [Outcome.bind_eq, Outcome.ok_bind]; exact ih (fun x hx => hf x (List.mem_cons_of_mem _ hx)) hu' _
    · rw [hr]; rfl

omit [Field α] [LinearOrder α] in
theorem filterMap_if {L : List (Entry α)} {P : Entry α → Prop} [DecidablePred P] (F : Entry α → List (Col α)) :
    (L.filterMap fun e => (if P e then some (F e) else none).map fun r => (e.key, r)) = (L.filter fun e => P e).map fun e => (e.key, F e) := by
  induction L with
  | nil => rfl
  | cons e L ih =>
    rw [List.filterMap_cons, ih]
    by_cases h : P e <;> simp [h]

omit [Field α] [LinearOrder α] in
/-- Entries of a p-vector and zeros behind them. -/
theorem pvec_columns {pvec : List Nat} {p : Int} (h2 : 2 ≤ pvec.length) (hp : (pvec.length : Int) ≤ p) :
    (pvec.drop 2).map (fun q : Nat => (Col.num (q : Int) : Col α)) ++ pad (.num 0) pvec.length p = (List.range (p - 2).toNat).map fun i => Col.num ((pvec.getD (i + 2) 0 : Nat) : Int) := by
  apply List.ext_getElem
  · simp [pad]; omega
  · intro i h1 h2'
    rw [List.getElem_map, List.getElem_range]
    by_cases hi : i + 2 < pvec.length
    · rw [List.getElem_append_left (by simp; omega)]
      simp [List.getD_eq_getElem?_getD, hi, Nat.add_comm]
    · rw [List.getElem_append_right (by simp; omega)]
      simp [pad, List.getD_eq_getElem?_getD, List.getElem?_eq_none (not_lt.1 hi)]

theorem estimateCentroid_vertices (dim : Nat) (gr : Grain α) (vs : List Ids) : (estimateCentroid dim { gr with vertices := vs }).moment = (estimateCentroid dim gr).moment := by
  unfold estimateCentroid
  show (if gr.edges.length = 0 then _ else if dim = 3 ∧ gr.faces.length = 0 then _ else _ : Grain α).moment = _
  by_cases h1 : gr.edges.length = 0
  · rw [if_pos h1, if_pos h1]
  · rw [if_neg h1, if_neg h1]
    by_cases h2 : dim = 3 ∧ gr.faces.length = 0
    · rw [if_pos h2, if_pos h2]
    · rw [if_neg h2, if_neg h2]
      have key : ∀ (w : α) (L : List (Nat → Int)) (q q' : Grain α), q.moment = q'.moment →
          (L.foldl (fun g' x => g'.addMass w (fold gr dim x)) q).moment = (L.foldl (fun g' x => g'.addMass w (fold gr dim x)) q').moment := by
        intro w L
        induction L with
        | nil => intro q q' h; exact h
        | cons x L ih => intro q q' h; exact ih _ _ (by funext j; simp [Grain.addMass, h])
      exact key _ _ _ _ rfl

/-! ## Three dimensions -/

omit [Field α] [LinearOrder α] in
theorem compute3 {gr : Grain α} (hg : Good gr.edges gr.faces) (hv : gr.vertices = []) (h1 : ∀ f ∈ gr.faces, edgeCount gr.edges f ≠ 1) :
    ∃ R : Result α, (∃ v, compute 3 gr = .ok (R.grain, R.pvec, [0, v, R.p, R.n])) ∧ R.grain = { gr with vertices := R.grain.vertices } ∧ R.grain.vertices.Nodup ∧
      (∀ v, v ∈ R.grain.vertices ↔ Triple gr.edges v) ∧ R.n = gr.faces.length ∧
      (gr.edges ≠ [] → R.p = R.pvec.length ∧ 3 ≤ R.pvec.length ∧ ∀ p, R.pvec.getD p 0 = (gr.faces.filter fun f => edgeCount gr.edges f = p).length) := by
  obtain ⟨vs, r, i1, i2, i3⟩ := inferVertices_spec hg hv
  by_cases hne : gr.edges = []
  · have hp : makePvector { gr with vertices := vs } = .ok ([0], 0) := by unfold makePvector; rw [if_pos (by simp [hne])]
    refine ⟨⟨{ gr with vertices := vs }, [0], 0, gr.faces.length⟩, ⟨r, ?_⟩, rfl, i2, i3, rfl, fun h => absurd hne h⟩
    rw [compute, if_neg (by decide), computeTopology, i1, Outcome.ok_bind, hp, Outcome.ok_bind]; rfl
  · obtain ⟨pvec, m1, m2, m3, m4⟩ := (makePvector_spec (gr := { gr with vertices := vs }) hg hne).2 h1
    refine ⟨⟨{ gr with vertices := vs }, pvec, pvec.length, gr.faces.length⟩, ⟨r, ?_⟩, rfl, i2, i3, rfl, fun _ => ⟨rfl, ?_, m2⟩⟩
    · rw [compute, if_neg (by decide), computeTopology, i1, Outcome.ok_bind, m1, Outcome.ok_bind]
    · obtain ⟨e, he⟩ := List.exists_mem_of_ne_nil _ hne
      obtain ⟨a, b, hab, hx, ha, -, -⟩ := hg.pair e he
      have hc : edgeCount gr.edges a ≠ 0 := by
        intro h0
        rw [edgeCount, List.length_eq_zero_iff, List.filter_eq_nil_iff] at h0
        exact h0 e he (by simp [hx])
      have hc1 := h1 a ha
      by_contra hlt
      have h0 : pvec.getD (edgeCount gr.edges a) 0 = 0 := by
        rw [List.getD_eq_getElem?_getD, List.getElem?_eq_none (by show pvec.length ≤ _; have : ¬ 3 ≤ pvec.length := hlt; omega)]; rfl
      rw [m2] at h0
      rw [List.length_eq_zero_iff, List.filter_eq_nil_iff] at h0
      exact h0 a ha (by simp)

omit [Field α] [LinearOrder α] in
/-- Three faces meeting pairwise are three faces with three edges. -/
theorem triple_counts {gr : Grain α} (hg : Good gr.edges gr.faces) {v : Ids} (h : Triple gr.edges v) : 3 ≤ gr.edges.length ∧ 3 ≤ gr.faces.length := by
  obtain ⟨a, b, c, -, h1, h2, h3⟩ := h
  have hab := h1.1
  have hbc := h2.1
  constructor
  · have hsub : [[a, b], [b, c], [a, c]] ⊆ gr.edges.map Prod.fst := by
      intro w hw
      simp only [List.mem_cons, List.not_mem_nil, or_false] at hw
      rcases hw with rfl | rfl | rfl
      exacts [h1.2, h2.2, h3.2]
    have hnd : [[a, b], [b, c], [a, c]].Nodup := by
      have : a ≠ b := by omega
      have : b ≠ c := by omega
      have : b ≠ a := by omega
      simp [*]
    have := (hnd.subperm hsub).length_le
    simpa using this
  · have hsub : [a, b, c] ⊆ gr.faces := by
      intro w hw
      simp only [List.mem_cons, List.not_mem_nil, or_false] at hw
      rcases hw with rfl | rfl | rfl
      exacts [(mem_faces_of_edge hg h1).1, (mem_faces_of_edge hg h1).2, (mem_faces_of_edge hg h2).2]
    have hnd : [a, b, c].Nodup := by
      have : a ≠ b := by omega
      have : b ≠ c := by omega
      have : a ≠ c := by omega
      simp [*]
    have := (hnd.subperm hsub).length_le
    simpa using this

/-- A grain has two vertices: two sets of three of its neighbours each meet pairwise along its edges. -/
def TwoVertices (edges : List (Ids × List (Nat → Int))) : Prop := ∃ v w, v ≠ w ∧ Triple edges v ∧ Triple edges w

omit [Field α] [LinearOrder α] in
theorem shown_iff {gr : Grain α} (hg : Good gr.edges gr.faces) {vs : List Ids} (hn : vs.Nodup) (hs : ∀ v, v ∈ vs ↔ Triple gr.edges v) :
    ¬ (vs.length < 2 ∨ gr.edges.length < 3 ∨ gr.faces.length < 3) ↔ TwoVertices gr.edges := by
  constructor
  · intro h
    match vs, hn, hs with
    | [], _, _ => simp at h
    | [_], _, _ => simp at h
    | v :: w :: vs, hn, hs =>
      refine ⟨v, w, ?_, (hs v).1 (by simp), (hs w).1 (by simp)⟩
      rintro rfl; simp at hn
  · rintro ⟨v, w, hvw, h1, h2⟩
    obtain ⟨c1, c2⟩ := triple_counts hg h1
    have : 2 ≤ vs.length := by
      have := ((show [v, w].Nodup by simp [hvw]).subperm (l₂ := vs) (by
        intro x hx
        simp only [List.mem_cons, List.not_mem_nil, or_false] at hx
        rcases hx with rfl | rfl
        exacts [(hs _).2 h1, (hs _).2 h2])).length_le
      simpa using this
    omega

/-- The row of a grain of the bulk: number, centre of mass, volume, numbers of vertices, faces and edges, Euler characteristic, the numbers of faces with 2, 3, … edges, the neighbours. -/
def IsBulkRow (toInt : α → Int) (P N : Nat) (e : Entry α) (row : List (Col α)) : Prop :=
  ∃ vs : List Ids, vs.Nodup ∧ (∀ v, v ∈ vs ↔ Triple e.grain.edges v) ∧
    row = [.num e.key] ++ ((List.range 3).map fun d => .num (toInt (e.grain.moment d / e.grain.volume))) ++
      [.val e.grain.volume, .num vs.length, .num e.grain.faces.length, .num e.grain.edges.length, .num (vs.length + e.grain.faces.length - e.grain.edges.length)] ++
      ((List.range P).map fun i => .num (e.grain.faces.filter fun f => edgeCount e.grain.edges f = i + 2).length) ++
      e.grain.faces.map (fun i => .num i) ++ List.replicate (N - e.grain.faces.length) .blank

/-- The row of another grain: the centre of mass is the estimate, and there are zeros for vertices, edges, Euler characteristic and p-vector. -/
def IsOtherRow (toInt : α → Int) (P N : Nat) (e : Entry α) (row : List (Col α)) : Prop :=
  row = [.num e.key] ++ ((List.range 3).map fun d => .num (toInt ((estimateCentroid 3 e.grain).moment d / e.grain.volume))) ++
      [.val e.grain.volume, .num 0, .num e.grain.faces.length, .num 0, .num 0] ++ List.replicate P (.num 0) ++
      e.grain.faces.map (fun i => .num i) ++ List.replicate (N - e.grain.faces.length) .blank

/-- What the loop over the nodes leaves: edges between faces, no vertices yet; no face with one edge. -/
structure Sound (e : Entry α) : Prop where
  fresh : e.excluded = false
  good : Good e.grain.edges e.grain.faces
  none : e.grain.vertices = []
  noSingle : ∀ f ∈ e.grain.faces, edgeCount e.grain.edges f ≠ 1

omit [Field α] [LinearOrder α] in
theorem faces_nil_iff {gr : Grain α} (hg : Good gr.edges gr.faces) : gr.faces = [] ↔ gr.edges = [] := by
  constructor
  · intro h
    by_contra hne
    obtain ⟨e, he⟩ := List.exists_mem_of_ne_nil _ hne
    obtain ⟨a, b, -, -, ha, -⟩ := hg.pair e he
    rw [h] at ha; simp at ha
  · intro h
    apply List.eq_nil_iff_forall_not_mem.2
    intro f hf
    obtain ⟨x, hx, -⟩ := hg.onEdge f hf
    rw [h] at hx; simp at hx

/-- The columns as `IsBulkRow` has them. -/
def rowB (toInt : α → Int) (P N : Nat) (e : Entry α) (vs : List Ids) : List (Col α) :=
  [.num e.key] ++ ((List.range 3).map fun d => .num (toInt (e.grain.moment d / e.grain.volume))) ++
      [.val e.grain.volume, .num vs.length, .num e.grain.faces.length, .num e.grain.edges.length, .num (vs.length + e.grain.faces.length - e.grain.edges.length)] ++
      ((List.range P).map fun i => .num (e.grain.faces.filter fun f => edgeCount e.grain.edges f = i + 2).length) ++
      e.grain.faces.map (fun i => .num i) ++ List.replicate (N - e.grain.faces.length) .blank

/-- The columns as `IsOtherRow` has them. -/
def rowO (toInt : α → Int) (P N : Nat) (e : Entry α) : List (Col α) :=
  [.num e.key] ++ ((List.range 3).map fun d => .num (toInt ((estimateCentroid 3 e.grain).moment d / e.grain.volume))) ++
      [.val e.grain.volume, .num 0, .num e.grain.faces.length, .num 0, .num 0] ++ List.replicate P (.num 0) ++
      e.grain.faces.map (fun i => .num i) ++ List.replicate (N - e.grain.faces.length) .blank

open Classical in
theorem print_bulk [IsStrictOrderedRing α] (toInt : α → Int) {e : Entry α} (hg : Good e.grain.edges e.grain.faces) {vs : List Ids} (hn : vs.Nodup) (hv : ∀ v, v ∈ vs ↔ Triple e.grain.edges v) {pvec : List Nat} (h3 : 3 ≤ pvec.length)
    (hp : ∀ p, pvec.getD p 0 = (e.grain.faces.filter fun f => edgeCount e.grain.edges f = p).length) (h1 : 1 ≤ e.grain.volume) {p N : Int} (hpp : (pvec.length : Int) ≤ p) :
    printCSV 3 toInt ⟨e.key, { e.grain with vertices := vs }, false, pvec⟩ p N = .ok (if TwoVertices e.grain.edges then some (rowB toInt (p - 2).toNat N.toNat e vs) else none) := by
  have h0 : e.grain.volume ≠ 0 := ne_of_gt (lt_of_lt_of_le one_pos h1)
  rw [printCSV, if_neg (by simp)]
  have hc := shown_iff hg hn hv
  by_cases ht : TwoVertices e.grain.edges
  · rw [if_neg (by rw [if_neg (by decide)]; exact hc.2 ht), if_pos ht]
    dsimp only
    rw [if_neg h0, if_neg (by simpa using by omega), neighbours, if_neg (by decide), Outcome.ok_bind, if_neg (by decide)]
    have e1 := pvec_columns (α := α) (by omega) hpp
    simp only [List.append_assoc] at e1 ⊢
    rw [← List.append_assoc (List.map _ (List.drop 2 pvec)), e1, rowB]
    have hpad : pad (Col.blank : Col α) e.grain.faces.length N = List.replicate (N.toNat - e.grain.faces.length) .blank := by
      rw [pad]; congr 1; omega
    simp only [hpad, List.append_assoc, centre, List.nil_append, euler, hp]
  · rw [if_pos (by rw [if_neg (by decide)]; exact not_not.1 fun h => ht (hc.1 h)), if_neg ht]

theorem print_other [IsStrictOrderedRing α] (toInt : α → Int) {e : Entry α} (hg : Good e.grain.edges e.grain.faces) (vs : List Ids) (hvs : e.grain.faces = [] → vs = []) {pvec : List Nat} (h3 : e.grain.faces ≠ [] → 3 ≤ pvec.length)
    {p N : Int} :
    printCSV 3 toInt ⟨e.key, estimateCentroid 3 { e.grain with vertices := vs }, true, pvec⟩ p N =
      if e.grain.faces ≠ [] then (if e.grain.volume = 0 then .ub else .ok (some (rowO toInt (p - 2).toNat N.toNat e))) else .ok none := by
  have k := estimateCentroid_keeps 3 (gr := { e.grain with vertices := vs }) hg
  have k5 := estimateCentroid_vertices 3 e.grain vs
  generalize estimateCentroid 3 { e.grain with vertices := vs } = G at k k5 ⊢
  dsimp only at k
  obtain ⟨k1, k2, -, k4⟩ := k
  by_cases hf : e.grain.faces = []
  · have c1 : ¬ ((true = true) ∧ (3 = 2 ∨ 0 < G.faces.length)) := by rw [k2, hf]; simp
    rw [if_neg (not_not.2 hf), printCSV, if_neg c1, if_pos]
    rw [if_neg (by decide)]
    left
    rw [k4, hvs hf]; exact Nat.zero_lt_two
  · have c1 : (true = true) ∧ (3 = 2 ∨ 0 < G.faces.length) := by rw [k2]; exact ⟨rfl, Or.inr (List.length_pos_iff.2 hf)⟩
    rw [if_pos hf, printCSV, if_pos c1]
    dsimp only
    rw [k1]
    by_cases h0 : e.grain.volume = 0
    · rw [if_pos h0, if_pos h0]
    · have c2 := h3 hf
      rw [if_neg h0, if_neg h0, if_neg (by omega), neighbours, if_neg (by decide), Outcome.ok_bind]
      have hpad : (N - (e.grain.faces.length : Int)).toNat = N.toNat - e.grain.faces.length := by omega
      simp only [centre, k1, k2, k5, rowO, pad, hpad, List.append_assoc]
      rfl

open Classical in
/-- **C86.** The table of a three-dimensional grid. It is undefined if a grain with neighbours has volume zero. Otherwise every row has as many columns as the first line; the first part
has one row for each grain of volume at least 1 with two vertices, the second for each smaller grain with neighbours, in the order of their numbers. The numbers printed are: as bulk
the grains of volume at least 1, as surface grains the others, all of which are excluded for their volume; of the bulk grains those without edges are excluded too. -/
theorem table3 [IsStrictOrderedRing α] (unit : α) (toInt : α → Int) {l : List (Entry α)} (hs : ∀ e ∈ l, Sound e) :
    ((∃ e ∈ l, e.grain.faces ≠ [] ∧ e.grain.volume = 0) → table 3 unit toInt l = .ub) ∧
    ((∀ e ∈ l, e.grain.faces ≠ [] → e.grain.volume ≠ 0) → ∃ t P N, table 3 unit toInt l = .ok t ∧ t.columns = 9 + P + N ∧
      (∃ F : Entry α → List (Col α), t.bulkRows = (l.filter fun e => 1 ≤ e.grain.volume ∧ TwoVertices e.grain.edges).map (fun e => (e.key, F e)) ∧
        ∀ e ∈ l, 1 ≤ e.grain.volume ∧ TwoVertices e.grain.edges → IsBulkRow toInt P N e (F e) ∧ (F e).length = t.columns) ∧
      (∃ F : Entry α → List (Col α), t.otherRows = (l.filter fun e => e.grain.volume < 1 ∧ e.grain.faces ≠ []).map (fun e => (e.key, F e)) ∧
        ∀ e ∈ l, e.grain.volume < 1 ∧ e.grain.faces ≠ [] → IsOtherRow toInt P N e (F e) ∧ (F e).length = t.columns) ∧
      t.bulk = (l.countP fun e => 1 ≤ e.grain.volume) ∧ t.surface = (l.countP fun e => e.grain.volume < 1) ∧ t.zeroVolume = (l.countP fun e => e.grain.volume < 1) ∧
      t.zeroFaces = 0 ∧ t.zeroEdges = l.countP fun e => 1 ≤ e.grain.volume ∧ e.grain.edges = []) := by
  -- the analysis of every grain
  have hR : ∀ gr : Grain α, ∃ R : Result α, (Good gr.edges gr.faces ∧ gr.vertices = [] ∧ ∀ f ∈ gr.faces, edgeCount gr.edges f ≠ 1) →
      (∃ v, compute 3 gr = .ok (R.grain, R.pvec, [0, v, R.p, R.n])) ∧ R.grain = { gr with vertices := R.grain.vertices } ∧
      R.grain.vertices.Nodup ∧ (∀ v, v ∈ R.grain.vertices ↔ Triple gr.edges v) ∧ R.n = gr.faces.length ∧
      (gr.edges ≠ [] → R.p = R.pvec.length ∧ 3 ≤ R.pvec.length ∧ ∀ p, R.pvec.getD p 0 = (gr.faces.filter fun f => edgeCount gr.edges f = p).length) := by
    intro gr
    by_cases he : Good gr.edges gr.faces ∧ gr.vertices = [] ∧ ∀ f ∈ gr.faces, edgeCount gr.edges f ≠ 1
    · obtain ⟨R, hR⟩ := compute3 he.1 he.2.1 he.2.2
      exact ⟨R, fun _ => hR⟩
    · exact ⟨⟨gr, [], 0, 0⟩, fun h => absurd h he⟩
  choose f0 hf0 using hR
  have hf : ∀ e ∈ l, _ := fun e he => hf0 e.grain ⟨(hs e he).good, (hs e he).none, (hs e he).noSingle⟩
  have hb := bulkLoop_eq unit fun e he => (hs e he).fresh
  have ha := analysisLoop_eq (dim := 3) (l := l.map marked) (f := fun e => f0 e.grain) (by
    intro e' he'
    obtain ⟨e, he, rfl⟩ := List.mem_map.1 he'
    exact (hf e he).1)
  obtain ⟨-, hp⟩ := le_foldl_max (l := l.map marked) (fun e => (f0 e.grain).p) 0
  obtain ⟨-, hN⟩ := le_foldl_max (l := l.map marked) (fun e => (f0 e.grain).n) 0
  generalize (l.map marked).foldl (fun m e => max m (f0 e.grain).p) 0 = p at ha hp
  generalize (l.map marked).foldl (fun m e => max m (f0 e.grain).n) 0 = N at ha hN
  let post : Entry α → Entry α := fun e => ⟨e.key, { e.grain with vertices := (f0 e.grain).grain.vertices }, decide (e.grain.volume < 1) || decide (e.grain.edges = []), (f0 e.grain).pvec⟩
  have hpost : (l.map marked).map (analysed fun e => f0 e.grain) = l.map post := by
    rw [List.map_map]
    refine List.map_congr_left fun e he => ?_
    obtain ⟨-, h2, -⟩ := hf e he
    have hedges : (f0 e.grain).grain.edges = e.grain.edges := by rw [h2]
    simp only [Function.comp, analysed, marked, post, hedges, List.length_eq_zero_iff]
    rw [← h2]
  have hin : ∀ q : Entry α → Bool, (l.map post).filter q = (l.filter (q ∘ post)).map post := fun q => List.filter_map
  have h1 := printLoop_eq (f := fun e => printCSV 3 toInt e p N) (post := post) (fun _ => rfl) (l := l.filter ((fun e => !e.excluded) ∘ post))
    (h := fun e => if TwoVertices e.grain.edges then some (rowB toInt (p - 2).toNat N.toNat e (f0 e.grain).grain.vertices) else none) (by
      intro e he
      rw [List.mem_filter] at he
      obtain ⟨he, hx⟩ := he
      obtain ⟨-, -, c3, c4, -, c6⟩ := hf e he
      simp only [Function.comp, post, Bool.not_or, Bool.and_eq_true, Bool.not_eq_true', decide_eq_false_iff_not, not_lt] at hx
      obtain ⟨d1, d2, d3⟩ := c6 hx.2
      have hpe : post e = ⟨e.key, { e.grain with vertices := (f0 e.grain).grain.vertices }, false, (f0 e.grain).pvec⟩ := by
        simp only [post]; rw [decide_eq_false (not_lt.2 hx.1), decide_eq_false hx.2]; rfl
      rw [hpe]
      exact print_bulk toInt (hs e he).good c3 c4 d2 d3 hx.1 (by rw [← d1]; exact hp (marked e) (List.mem_map_of_mem he)))
  have hO : ∀ e ∈ l.filter ((fun e => e.excluded) ∘ post), printCSV 3 toInt { post e with grain := estimateCentroid 3 (post e).grain } p N =
      if e.grain.faces ≠ [] then (if e.grain.volume = 0 then .ub else .ok (some (rowO toInt (p - 2).toNat N.toNat e))) else .ok none := by
    intro e he
    rw [List.mem_filter] at he
    obtain ⟨he, hx⟩ := he
    obtain ⟨-, -, c3, c4, -, c6⟩ := hf e he
    have hpe : post e = ⟨e.key, { e.grain with vertices := (f0 e.grain).grain.vertices }, true, (f0 e.grain).pvec⟩ := by
      simp only [Function.comp, post] at hx ⊢; rw [hx]
    rw [hpe]
    refine print_other toInt (hs e he).good _ (fun h => ?_) fun h => (c6 fun h' => h ((faces_nil_iff (hs e he).good).2 h')).2.1
    apply List.eq_nil_iff_forall_not_mem.2
    intro v hv
    have := (triple_counts (hs e he).good ((c4 v).1 hv)).2
    rw [h] at this; simp at this
  have htab : table 3 unit toInt l = (printLoop (fun e => printCSV 3 toInt { e with grain := estimateCentroid 3 e.grain } p N) ((l.filter ((fun e => e.excluded) ∘ post)).map post)).bind fun others =>
      .ok ⟨headerColumns p N, (l.filter ((fun e => !e.excluded) ∘ post)).filterMap fun e => (if TwoVertices e.grain.edges then some (rowB toInt (p - 2).toNat N.toNat e (f0 e.grain).grain.vertices) else none).map fun r => (e.key, r),
        others, l.countP fun e => 1 ≤ e.grain.volume, (l.length : Int) - ((l.countP fun e => 1 ≤ e.grain.volume : Nat) : Int), l.countP fun e => e.grain.volume < 1, 0,
        (l.map marked).countP fun e => (f0 e.grain).grain.edges.length = 0 ∧ e.excluded = false, (bulkLoop unit l).average⟩ := by
    rw [table]
    rw [hb]
    dsimp only
    rw [ha, Outcome.ok_bind]
    dsimp only
    rw [hpost, hin, hin, h1, Outcome.ok_bind]
  have hlen : ∀ e ∈ l, (e.grain.faces.length : Int) ≤ N := fun e he => by
    obtain ⟨-, -, -, -, c5, -⟩ := hf e he
    rw [← c5]; exact hN (marked e) (List.mem_map_of_mem he)
  constructor
  · rintro ⟨e, he, hfe, h0⟩
    rw [htab, printLoop_ub]
    · rfl
    · intro e' he'
      obtain ⟨e, he, rfl⟩ := List.mem_map.1 he'
      rw [hO e he]
      by_cases hf : e.grain.faces ≠ []
      · rw [if_pos hf]
        by_cases h0 : e.grain.volume = 0
        · rw [if_pos h0]; exact Or.inr rfl
        · rw [if_neg h0]; exact Or.inl ⟨_, rfl⟩
      · rw [if_neg hf]; exact Or.inl ⟨_, rfl⟩
    · have hin : e ∈ l.filter ((fun e => e.excluded) ∘ post) := by
        rw [List.mem_filter]
        refine ⟨he, ?_⟩
        simp only [Function.comp, post, h0]
        rw [decide_eq_true zero_lt_one]; rfl
      exact ⟨post e, List.mem_map_of_mem hin, by rw [hO e hin, if_pos hfe, if_pos h0]⟩
  · intro hv0
    have h2 := printLoop_eq (f := fun e => printCSV 3 toInt { e with grain := estimateCentroid 3 e.grain } p N) (post := post) (fun _ => rfl) (l := l.filter ((fun e => e.excluded) ∘ post))
      (h := fun e => if e.grain.faces ≠ [] then some (rowO toInt (p - 2).toNat N.toNat e) else none) (by
        intro e he
        rw [hO e he]
        by_cases hf : e.grain.faces ≠ []
        · rw [if_pos hf, if_pos hf, if_neg (hv0 e (List.mem_of_mem_filter he) hf)]
        · rw [if_neg hf, if_neg hf])
    rw [h2, Outcome.ok_bind] at htab
    refine ⟨_, (p - 2).toNat, N.toNat, htab, rfl, ⟨fun e => rowB toInt (p - 2).toNat N.toNat e (f0 e.grain).grain.vertices, ?_, ?_⟩, ⟨fun e => rowO toInt (p - 2).toNat N.toNat e, ?_, ?_⟩, rfl, ?_, rfl, rfl, ?_⟩
    · dsimp only
      rw [filterMap_if, List.filter_filter]
      congr 1
      refine List.filter_congr fun e he => ?_
      have hne : TwoVertices e.grain.edges → e.grain.edges ≠ [] := by
        rintro ⟨v, -, -, h, -⟩ h0
        have := (triple_counts (hs e he).good h).1
        rw [h0] at this; simp at this
      by_cases ht : TwoVertices e.grain.edges
      · have hx : ((fun e : Entry α => !e.excluded) ∘ post) e = decide (1 ≤ e.grain.volume) := by
          by_cases hv : e.grain.volume < 1
          · simp [post, hv, not_le.2 hv]
          · simp [post, hv, not_lt.1 hv, hne ht]
        rw [hx]; simp [ht]
      · simp [ht]
    · intro e he _
      obtain ⟨-, -, c3, c4, -, -⟩ := hf e he
      refine ⟨⟨_, c3, c4, rfl⟩, ?_⟩
      have := hlen e he
      simp only [rowB, headerColumns, List.length_append, List.length_map, List.length_range, List.length_replicate, List.length_cons, List.length_nil]
      omega
    · dsimp only
      rw [filterMap_if, List.filter_filter]
      congr 1
      refine List.filter_congr fun e he => ?_
      by_cases hf : e.grain.faces = []
      · simp [hf]
      · have : e.grain.edges ≠ [] := fun h => hf ((faces_nil_iff (hs e he).good).2 h)
        simp [Function.comp, post, hf, this]
    · intro e he _
      refine ⟨rfl, ?_⟩
      have := hlen e he
      simp only [rowO, headerColumns, List.length_append, List.length_map, List.length_range, List.length_replicate, List.length_cons, List.length_nil]
      omega
    · dsimp only
      have := List.length_eq_countP_add_countP (fun e : Entry α => decide (1 ≤ e.grain.volume)) (l := l)
      have e2 : (l.countP fun e => ¬ decide (1 ≤ e.grain.volume) = true) = l.countP fun e => e.grain.volume < 1 := List.countP_congr fun e _ => by simp
      rw [e2] at this
      omega
    · dsimp only
      rw [List.countP_map]
      refine List.countP_congr fun e he => ?_
      obtain ⟨-, c2, -⟩ := hf e he
      have hedges : (f0 e.grain).grain.edges = e.grain.edges := by rw [c2]
      simp [Function.comp, marked, hedges, and_comm]

theorem average_spec (unit : α) {l : List (Entry α)} (h : ∀ e ∈ l, e.excluded = false) :
    (bulkLoop unit l).average = if (l.countP fun e => 1 ≤ e.grain.volume) = 0 then none
      else some (((l.filter fun e => 1 ≤ e.grain.volume).map fun e => unit * e.grain.volume).sum / (l.countP fun e => 1 ≤ e.grain.volume : Nat)) := by
  rw [bulkLoop_eq unit h]; rfl

/-! ## Planes -/

/-- What the loop over the nodes of a plane leaves: no faces, one edge for every neighbour. -/
structure Sound2 (gr : Grain α) : Prop where
  noFaces : gr.faces = []
  once : (gr.edges.map Prod.fst).Nodup
  one : ∀ e ∈ gr.edges, (∃ a, e.1 = [a]) ∧ e.2 ≠ []

/-- The neighbours of a grain of a plane, ascending. -/
def names (gr : Grain α) : List Nat := (gr.edges.map fun e => e.1.headD 0).insertionSort (· ≤ ·)

omit [Field α] [LinearOrder α] in
theorem firsts_eq {gr : Grain α} (h : Sound2 gr) : firsts gr = .ok (names gr) := by
  have key : ∀ (L : List (Ids × List (Nat → Int))), (∀ e ∈ L, (∃ a, e.1 = [a]) ∧ e.2 ≠ []) → ∀ out : List Nat,
      L.foldlM firstStep out = .ok (out ++ L.map fun e => e.1.headD 0) := by
    intro L
    induction L with
    | nil => intro _ out; simp [pure]
    | cons e L ih =>
      intro hL out
      obtain ⟨⟨a, ha⟩, -⟩ := hL e (by simp)
      rw [List.foldlM_cons, firstStep, ha]
      simp only [Outcome.bind_eq, Outcome.ok_bind]
      rw [ih fun x hx => hL x (List.mem_cons_of_mem _ hx)]
      simp [ha]
  have := key gr.edges h.one []
  rw [firsts, this]
  rfl

omit [Field α] [LinearOrder α] in
/-- They are ascending, and there is one for every edge. -/
theorem names_spec {gr : Grain α} (h : Sound2 gr) : Asc (names gr) ∧ (∀ a, a ∈ names gr ↔ [a] ∈ gr.edges.map Prod.fst) ∧ (names gr).length = gr.edges.length := by
  have hmap : gr.edges.map Prod.fst = (gr.edges.map fun e => e.1.headD 0).map fun a => [a] := by
    rw [List.map_map]
    refine List.map_congr_left fun e he => ?_
    obtain ⟨⟨a, ha⟩, -⟩ := h.one e he
    simp [ha]
  have hnd : (gr.edges.map fun e => e.1.headD 0).Nodup := List.Nodup.of_map _ (hmap ▸ h.once)
  have hperm := List.perm_insertionSort (· ≤ ·) (gr.edges.map fun e => e.1.headD 0)
  refine ⟨?_, fun a => ?_, by rw [names, hperm.length_eq, List.length_map]⟩
  · have h1 : (names gr).Pairwise (· ≤ ·) := List.pairwise_insertionSort _ _
    have h2 : (names gr).Nodup := hperm.nodup_iff.2 hnd
    exact (h1.and h2).imp fun h => lt_of_le_of_ne h.1 h.2
  · rw [names, hperm.mem_iff, hmap]
    simp

/-- A row of the first part for a plane: number, centre of mass with a zero, volume, numbers of vertices, faces (none) and edges, V - E, again the number of edges, the neighbours. -/
def planeBulk (toInt : α → Int) (e : Entry α) : List (Col α) :=
  [.num e.key, .num (toInt (e.grain.moment 0 / e.grain.volume)), .num (toInt (e.grain.moment 1 / e.grain.volume)), .num 0, .val e.grain.volume, .num e.grain.vertices.length, .num 0,
    .num e.grain.edges.length, .num (e.grain.vertices.length - e.grain.edges.length), .num e.grain.edges.length] ++ (names e.grain).map fun i : Nat => .num (i : Int)

/-- A row of the second part: here the third coordinate is missing, so that all further columns are one to the left. -/
def planeOther (toInt : α → Int) (e : Entry α) : List (Col α) :=
  [.num e.key, .num (toInt ((estimateCentroid 2 e.grain).moment 0 / e.grain.volume)), .num (toInt ((estimateCentroid 2 e.grain).moment 1 / e.grain.volume)), .val e.grain.volume, .num 0,
    .num 1, .num 0, .num 0, .num 0] ++ (names e.grain).map fun i : Nat => .num (i : Int)

omit [LinearOrder α] in
theorem range2 (f : Nat → Col α) : (List.range 2).map f = [f 0, f 1] := rfl

/-- **C86.** The table of a plane. It is undefined if a grain has volume zero. Otherwise the first line has ten columns, but every row of the first part has a further column for each
neighbour of the grain, and every row of the second part lacks the third coordinate. The first part has the grains of volume at least 1 with a vertex and two edges, the second part
those smaller or without edges. -/
theorem table2 [IsStrictOrderedRing α] (unit : α) (toInt : α → Int) {l : List (Entry α)} (hex : ∀ e ∈ l, e.excluded = false) (hs : ∀ e ∈ l, Sound2 e.grain) :
    ((∃ e ∈ l, e.grain.volume = 0) → table 2 unit toInt l = .ub) ∧
    ((∀ e ∈ l, e.grain.volume ≠ 0) → ∃ t, table 2 unit toInt l = .ok t ∧ (l ≠ [] → t.columns = 10) ∧
      t.bulkRows = (l.filter fun e => 1 ≤ e.grain.volume ∧ 1 ≤ e.grain.vertices.length ∧ 2 ≤ e.grain.edges.length).map (fun e => (e.key, planeBulk toInt e)) ∧
      t.otherRows = (l.filter fun e => e.grain.volume < 1 ∨ e.grain.edges = []).map (fun e => (e.key, planeOther toInt e)) ∧
      (∀ e ∈ l, (planeBulk toInt e).length = 10 + e.grain.edges.length ∧ (planeOther toInt e).length = 9 + e.grain.edges.length) ∧
      t.bulk = (l.countP fun e => 1 ≤ e.grain.volume) ∧ t.surface = (l.countP fun e => e.grain.volume < 1) ∧ t.zeroVolume = (l.countP fun e => e.grain.volume < 1) ∧
      t.zeroFaces = 0 ∧ t.zeroEdges = l.countP fun e => 1 ≤ e.grain.volume ∧ e.grain.edges = []) := by
  let f : Entry α → Result α := fun e => ⟨e.grain, [0, 0, e.grain.edges.length], 3, e.grain.faces.length⟩
  have hb := bulkLoop_eq unit hex
  have ha := analysisLoop_eq (dim := 2) (l := l.map marked) (f := f) (by
    intro e' he'
    exact ⟨_, rfl⟩)
  have hp : l ≠ [] → (l.map marked).foldl (fun m e => max m (f e).p) 0 = 3 := by
    intro hl
    have : ∀ (L : List (Entry α)) (m : Int), m ≤ 3 → L.foldl (fun m e => max m (f e).p) m = if L = [] then m else 3 := by
      intro L
      induction L with
      | nil => intro m _; simp
      | cons a L ih =>
        intro m hm
        rw [List.foldl_cons, ih _ (by show max m 3 ≤ 3; omega)]
        show (if L = [] then max m 3 else 3) = _
        rw [max_eq_right hm]; simp
    rw [this _ 0 (by omega), if_neg (by simpa using hl)]
  have hN : (l.map marked).foldl (fun m e => max m (f e).n) 0 = 0 := by
    have : ∀ (L : List (Entry α)), (∀ e ∈ L, e.grain.faces = []) → L.foldl (fun m e => max m (f e).n) 0 = 0 := by
      intro L
      induction L with
      | nil => intro _; rfl
      | cons a L ih =>
        intro h
        rw [List.foldl_cons]
        have : max 0 (f a).n = 0 := by show max 0 ((a.grain.faces.length : Nat) : Int) = 0; rw [h a (by simp)]; rfl
        rw [this]
        exact ih fun e he => h e (List.mem_cons_of_mem _ he)
    apply this
    intro e' he'
    obtain ⟨e, he, rfl⟩ := List.mem_map.1 he'
    exact (hs e he).noFaces
  rw [hN] at ha
  by_cases hl : l = []
  · subst hl
    exact ⟨fun ⟨e, he, _⟩ => absurd he (by simp), fun _ => ⟨_, rfl, fun h => absurd rfl h, rfl, rfl, fun e he => absurd he (by simp), rfl, rfl, rfl, rfl, rfl⟩⟩
  rw [hp hl] at ha
  let post : Entry α → Entry α := fun e => ⟨e.key, e.grain, decide (e.grain.volume < 1) || decide (e.grain.edges.length = 0), [0, 0, e.grain.edges.length]⟩
  have hpost : (l.map marked).map (analysed f) = l.map post := by
    rw [List.map_map]; rfl
  have hin : ∀ q : Entry α → Bool, (l.map post).filter q = (l.filter (q ∘ post)).map post := fun q => List.filter_map
  have hlens : ∀ e ∈ l, (planeBulk toInt e).length = 10 + e.grain.edges.length ∧ (planeOther toInt e).length = 9 + e.grain.edges.length := by
    intro e he
    obtain ⟨-, -, h3⟩ := names_spec (hs e he)
    simp [planeBulk, planeOther, h3]; omega
  have hnb : ∀ gr : Grain α, Sound2 gr → neighbours 2 gr 0 = .ok ((names gr).map fun i : Nat => (.num (i : Int) : Col α)) := by
    intro gr h
    rw [neighbours, if_pos rfl, firsts_eq h, Outcome.ok_bind, pad]
    have : ((0 : Int) - (gr.edges.length : Int)).toNat = 0 := by omega
    rw [this]; simp
  have h1 := printLoop_eq (f := fun e => printCSV 2 toInt e 3 0) (post := post) (fun _ => rfl) (l := l.filter ((fun e => !e.excluded) ∘ post))
    (h := fun e => if 1 ≤ e.grain.vertices.length ∧ 2 ≤ e.grain.edges.length then some (planeBulk toInt e) else none) (by
      intro e he
      rw [List.mem_filter] at he
      obtain ⟨he, hx⟩ := he
      simp only [Function.comp, post, Bool.not_or, Bool.and_eq_true, Bool.not_eq_true', decide_eq_false_iff_not, not_lt] at hx
      have hpe : post e = ⟨e.key, e.grain, false, [0, 0, e.grain.edges.length]⟩ := by
        simp only [post]; rw [decide_eq_false (not_lt.2 hx.1), decide_eq_false hx.2]; rfl
      rw [hpe, printCSV, if_neg (by simp)]
      dsimp only
      by_cases hc : 1 ≤ e.grain.vertices.length ∧ 2 ≤ e.grain.edges.length
      · rw [if_neg (by rw [if_pos rfl]; omega), if_neg (ne_of_gt (lt_of_lt_of_le one_pos hx.1)), if_neg (by simp), hnb _ (hs e he), Outcome.ok_bind, if_pos rfl, if_pos hc]
        simp [centre, range2, planeBulk, euler, (hs e he).noFaces, pad]
      · rw [if_pos (by rw [if_pos rfl]; omega), if_neg hc])
  have hO : ∀ e ∈ l.filter ((fun e => e.excluded) ∘ post), printCSV 2 toInt { post e with grain := estimateCentroid 2 (post e).grain } 3 0 =
      if e.grain.volume = 0 then .ub else .ok (some (planeOther toInt e)) := by
    intro e he
    rw [List.mem_filter] at he
    obtain ⟨he, hx⟩ := he
    have hpe : post e = ⟨e.key, e.grain, true, [0, 0, e.grain.edges.length]⟩ := by
      simp only [Function.comp, post] at hx ⊢; rw [hx]
    rw [hpe]
    have k := estimateCentroid_any 2 (gr := e.grain) fun x hx => ((hs e he).one x hx).2
    generalize hG : estimateCentroid 2 e.grain = G at k ⊢
    obtain ⟨k1, k2, k3, k4⟩ := k
    have hsG : Sound2 G := ⟨by rw [k2]; exact (hs e he).noFaces, by rw [k3]; exact (hs e he).once, by rw [k3]; exact (hs e he).one⟩
    have hnames : names G = names e.grain := by rw [names, names, k3]
    dsimp only
    rw [printCSV, if_pos ⟨rfl, Or.inl rfl⟩]
    dsimp only
    rw [k1]
    by_cases h0 : e.grain.volume = 0
    · rw [if_pos h0, if_pos h0]
    · rw [if_neg h0, if_neg h0, if_neg (by simp), hnb _ hsG, Outcome.ok_bind]
      simp [centre, range2, planeOther, hG, k1, hnames, pad]
  have htab : table 2 unit toInt l = (printLoop (fun e => printCSV 2 toInt { e with grain := estimateCentroid 2 e.grain } 3 0) ((l.filter ((fun e => e.excluded) ∘ post)).map post)).bind fun others =>
      .ok ⟨headerColumns 3 0, (l.filter ((fun e => !e.excluded) ∘ post)).filterMap fun e => (if 1 ≤ e.grain.vertices.length ∧ 2 ≤ e.grain.edges.length then some (planeBulk toInt e) else none).map fun r => (e.key, r),
        others, l.countP fun e => 1 ≤ e.grain.volume, (l.length : Int) - ((l.countP fun e => 1 ≤ e.grain.volume : Nat) : Int), l.countP fun e => e.grain.volume < 1, 0,
        (l.map marked).countP fun e => (f e).grain.edges.length = 0 ∧ e.excluded = false, (bulkLoop unit l).average⟩ := by
    rw [table]
    rw [hb]
    dsimp only
    rw [ha, Outcome.ok_bind]
    dsimp only
    rw [hpost, hin, hin, h1, Outcome.ok_bind]
  constructor
  · rintro ⟨e, he, h0⟩
    rw [htab, printLoop_ub]
    · rfl
    · intro e' he'
      obtain ⟨e, he, rfl⟩ := List.mem_map.1 he'
      rw [hO e he]
      by_cases h0 : e.grain.volume = 0
      · rw [if_pos h0]; exact Or.inr rfl
      · rw [if_neg h0]; exact Or.inl ⟨_, rfl⟩
    · have hin : e ∈ l.filter ((fun e => e.excluded) ∘ post) := by
        rw [List.mem_filter]
        refine ⟨he, ?_⟩
        simp only [Function.comp, post, h0]
        rw [decide_eq_true zero_lt_one]; rfl
      exact ⟨post e, List.mem_map_of_mem hin, by rw [hO e hin, if_pos h0]⟩
  · intro hv0
    have h2 := printLoop_eq (f := fun e => printCSV 2 toInt { e with grain := estimateCentroid 2 e.grain } 3 0) (post := post) (fun _ => rfl) (l := l.filter ((fun e => e.excluded) ∘ post))
      (h := fun e => some (planeOther toInt e)) (by
        intro e he
        rw [hO e he, if_neg (hv0 e (List.mem_of_mem_filter he))])
    rw [h2, Outcome.ok_bind] at htab
    refine ⟨_, htab, fun _ => rfl, ?_, ?_, hlens, rfl, ?_, rfl, rfl, ?_⟩
    · dsimp only
      rw [filterMap_if, List.filter_filter]
      congr 1
      refine List.filter_congr fun e he => ?_
      by_cases hv : e.grain.volume < 1
      · simp [post, hv, not_le.2 hv]
      · by_cases h2 : 2 ≤ e.grain.edges.length
        · have : e.grain.edges ≠ [] := by rintro h; rw [h] at h2; simp at h2
          simp [post, not_lt.1 hv, h2, this]
        · simp [h2]
    · dsimp only
      have : ∀ L : List (Entry α), (L.filterMap fun e => (some (planeOther toInt e)).map fun r => (e.key, r)) = L.map fun e => (e.key, planeOther toInt e) := fun L => by
        induction L with
        | nil => rfl
        | cons e L ih => rw [List.filterMap_cons, ih]; rfl
      rw [this]
      congr 1
      refine List.filter_congr fun e he => ?_
      by_cases hv : e.grain.volume < 1 <;> simp [post, hv]
    · dsimp only
      have := List.length_eq_countP_add_countP (fun e : Entry α => decide (1 ≤ e.grain.volume)) (l := l)
      have e2 : (l.countP fun e => ¬ decide (1 ≤ e.grain.volume) = true) = l.countP fun e => e.grain.volume < 1 := List.countP_congr fun e _ => by simp
      rw [e2] at this
      omega
    · dsimp only
      rw [List.countP_map]
      refine List.countP_congr fun e he => ?_
      simp [Function.comp, marked, f, and_comm]

end

end MMSP.Topology
