import Verif.SessionProps
import Verif.Restart
/-!
# Sessions of the examples whose cells are vectors or sparse vectors

`SessionProps.lean` composes `input`, `update` and `output` for any cell type. Here the byte counts of cells of bounded size are worked out, and the sessions of the phase-field
examples are stated.
-/

namespace MMSP.Sessions

open FileIO ParallelRun Ghost Decomp

variable {T D : Type}

/-! ## Cells of bounded size -/

theorem bounded_size (c : Cell T) {P : T → Prop} {B : Nat} (hB : ∀ v, P v → c.size v ≤ B) {g : Shape} (hg : g.Wf) {data : Int → T} (hv : ∀ o, 0 ≤ o → o < g.cells → P (data o)) {n : Nat}
    (h : bufferSize c g 1 g.x0 g.x1 data = .ok n) : n ≤ sites g * B := by
  have hin : AllIn g (visited g 1 g.x0 g.x1 g.dim 0) := by
    rw [visited_full]
    intro o ho
    obtain ⟨x, hx, rfl⟩ := List.mem_map.mp ho
    refine Shape.rawOffset_bounds hg fun j hj => ?_
    have := points_region (by decide) hx j hj
    have := hg.ghosts
    omega
  unfold bufferSize at h
  rw [regionSize_eq _ le_rfl hin] at h
  obtain rfl := Outcome.ok.inj h
  have hlen : (visited g 1 g.x0 g.x1 g.dim 0).length = sites g := by
    rw [visited_full, List.length_map, points_length _ _ _ le_rfl, Nat.sub_self]
    unfold sites
    rw [Finset.range_eq_Ico]
  rw [← hlen]
  have := List.sum_le_card_nsmul ((visited g 1 g.x0 g.x1 g.dim 0).map fun o => c.size (data o)) B (by
    intro x hx
    obtain ⟨o, ho, rfl⟩ := List.mem_map.mp hx
    have := hin o ho
    exact hB _ (hv o this.1 this.2))
  simpa using this

/-- Grids of cells of at most `B` bytes, not compressed, can be written if the bytes of the block fit the `int` of MPI. -/
theorem bounded_fits {fmt : Format T D} (hcomp : fmt.comp = none) {P : T → Prop} (hc : RoundTrips fmt.cell) (hP : ∀ v, P v → fmt.cell.Valid v) {B : Nat} (hB : ∀ v, P v → fmt.cell.size v ≤ B)
    {g : Shape} (hg : g.Wf) (hsize : sites g * B + 16 * g.dim + 16 < 2 ^ 31 - 1) :
    Fits fmt P g ∧ ∀ data b, (∀ o, 0 ≤ o → o < g.cells → P (data o)) → writeBuffer fmt.comp fmt.cell g data = .ok b → b.length < 2 ^ 31 - 1 := by
  refine ⟨⟨fun data hv n hn => ?_, fun data _ z raw hz => ?_⟩, fun data b hv hb => ?_⟩
  · have := bounded_size fmt.cell hB hg hv hn
    omega
  · rw [hcomp] at hz; cases hz
  · obtain ⟨raw, h1, h2⟩ := region_pack hc hg (by decide) (nodes_fit hg) (data := data) fun o a b => hP _ (hv o a b)
    have hn := bounded_size fmt.cell hB hg hv h2
    rw [hcomp] at hb
    unfold writeBuffer at hb
    rw [h2, Outcome.ok_bind, h1, Outcome.ok_bind, if_neg (by omega)] at hb
    obtain rfl := Outcome.ok.inj hb
    simp only [List.length_append, blockHeader_length, ulongBytes]
    simp
    omega

theorem sites_rank {m : Meta D} {d : Nat} {ghosts : Int} {np : Nat} (ok : (m.world d ghosts np).Ok np) {r : Int} (hr : IsRank np r) :
    sites ((m.world d ghosts np).shape r) ≤ sites (m.serial d) := by
  unfold sites
  refine Finset.prod_le_prod' fun j hj => ?_
  have := rank_room ok hr (Finset.mem_range.mp hj)
  have e0 : (m.serial d).x0 j = m.g0 j := rfl
  have e1 : (m.serial d).x1 j = m.g1 j := rfl
  have e2 : (m.world d ghosts np).g0 j = m.g0 j := rfl
  have e3 : (m.world d ghosts np).g1 j = m.g1 j := rfl
  omega

/-- Sessions of cells of bounded size, not compressed. -/
theorem bounded_sound {fmt : Format T D} (hcomp : fmt.comp = none) {m : Meta D} {P : Nat → T → Prop} (hc : RoundTrips fmt.cell) (hP : ∀ v, P 0 v → fmt.cell.Valid v) {B : Nat}
    (hB : ∀ v, P 0 v → fmt.cell.size v ≤ B) {s : Session T D} (ok : (m.world fmt.d s.ghosts (s.ranks.getD 1)).Ok (s.ranks.getD 1)) (count : s.ranks.getD 1 < 2 ^ 31)
    (disciplined : ∃ K, K.f 0 ∧ Disciplined fmt.d s.ghosts P oldKnown (s.prog (m.spacing fmt.dx0)) K) (junk : ∀ r k o, P k (s.junk r k o))
    (buffers : ∀ k, RoundTrips (s.cellOf fmt k)) (valid : ∀ k v, P k v → (s.cellOf fmt k).Valid v)
    (hsize : sites (m.serial fmt.d) * B + 16 * fmt.d + 16 < 2 ^ 31 - 1) : Sound fmt m P s := by
  refine ⟨ok, count, disciplined, junk, buffers, valid, fun _ => (bounded_fits hcomp hc hP hB (serial_wf ok) hsize).1, fun np hnp r hr => ?_⟩
  rw [hnp] at ok
  have ok : (m.world fmt.d s.ghosts np).Ok np := ok
  refine bounded_fits hcomp hc hP hB (shape_wf ok hr) ?_
  have h2 := Nat.mul_le_mul_right B (sites_rank ok hr)
  have e : ((m.world fmt.d s.ghosts np).shape r).dim = fmt.d := rfl
  rw [e]
  omega

/-! ## Any time loop -/

/-- One session of a program with the statements `update dx steps` in `update`. -/
def Part.call (update : (Nat → D) → Nat → List (Stmt T)) (q : Part T) : Session T D where
  ranks := q.ranks
  ghosts := q.ghosts
  prog := fun dx => update dx q.steps
  junk := q.junk

theorem serialRun_calls (g : Shape) (body : List (Stmt T)) (ps : List (Part T)) (dx : Nat → D) (update : (Nat → D) → Nat → List (Stmt T)) (hu : ∀ n, update dx n = updateOf body n) (σ : Grids T) :
    serialRun g ((ps.map (Part.call update)).flatMap fun s => s.prog dx) σ = serialRun g (repeatProg body (ps.map Part.steps).sum) σ := by
  induction ps generalizing σ with
  | nil => rfl
  | cons q ps ih =>
    have e : repeatProg body ((q :: ps).map Part.steps).sum = repeatProg body q.steps ++ repeatProg body (ps.map Part.steps).sum := by
      simp only [repeatProg, List.map_cons, List.sum_cons, List.replicate_add, List.flatten_append]
    have e2 : ((q :: ps).map (Part.call update)).flatMap (fun s => s.prog dx) = .ghostswap 0 :: (repeatProg body q.steps ++ (ps.map (Part.call update)).flatMap fun s => s.prog dx) := by
      show update dx q.steps ++ _ = _
      rw [hu]; rfl
    rw [e, e2]
    have e3 : ∀ p : List (Stmt T), serialRun g (.ghostswap 0 :: p) σ = serialRun g p σ := fun _ => rfl
    rw [e3]
    cases h : serialRun g (repeatProg body q.steps) σ with
    | ok σ1 => rw [serialRun_append h, serialRun_append h, ih]
    | ub => unfold serialRun at h ⊢; rw [List.foldlM_append, List.foldlM_append, h]; rfl
    | abort k => unfold serialRun at h ⊢; rw [List.foldlM_append, List.foldlM_append, h]; rfl

/-- What a sequence of sessions needs: on each number of ranks blocks that are thick enough, and at least one layer of ghosts. -/
def Runs (m : Meta D) (d : Nat) (P : T → Prop) (ps : List (Part T)) : Prop :=
  ∀ q ∈ ps, (m.world d q.ghosts (q.ranks.getD 1)).Ok (q.ranks.getD 1) ∧ q.ranks.getD 1 < 2 ^ 31 ∧ 1 ≤ q.ghosts ∧ ∀ r k o, P (q.junk r k o)

/-- **C97.** Any example that exchanges ghosts and then repeats a time loop whose right-hand sides read no more than is known: `k1` steps on `n1` ranks, restarted from the file for `k2`
steps on `n2` ranks and so on, succeed, and the last file holds node for node the field that the serial program computes in `k1 + k2 + …` steps. -/
theorem restarts {fmt : Format T D} (hcomp : fmt.comp = none) (hname : newline ∉ fmt.name) (hacc : checkType fmt.name fmt.name = .ok ()) {m : Meta D} (hm : m.Good fmt) {P : T → Prop}
    (hc : RoundTrips fmt.cell) (hP : ∀ v, P v → fmt.cell.Valid v) {B : Nat} (hB : ∀ v, P v → fmt.cell.size v ≤ B) (hfresh : P (fmt.fresh m.fields))
    (hsize : sites (m.serial fmt.d) * B + 16 * fmt.d + 16 < 2 ^ 31 - 1) (body : List (Stmt T)) (update : (Nat → D) → Nat → List (Stmt T))
    (hu : ∀ n, update (m.spacing fmt.dx0) n = updateOf body n) (hd : ∀ gh, 1 ≤ gh → Disciplined fmt.d gh (fun _ => P) oldKnown body oldKnown) {ps : List (Part T)} (hps : Runs m fmt.d P ps)
    {F : (Nat → Int) → T} {file : List Byte} (hfile : Denotes fmt m F file) {σ : Grids T} (hσ : Holds m fmt.d (fun _ => P) F σ) :
    ∃ σ', serialRun (m.serial fmt.d) (repeatProg body (ps.map Part.steps).sum) σ = .ok σ' ∧ (∃ last, Chain fmt (ps.map (Part.call update)) file last) ∧
      ∀ last, Chain fmt (ps.map (Part.call update)) file last → Denotes fmt m (cellAt (m.serial fmt.d) (σ' 0)) last := by
  have hfmt : fmt.Good P := ⟨hc, by rw [hcomp]; rintro z ⟨⟩, hname, hacc, hP⟩
  obtain ⟨σ', h1, h2, h3⟩ := chain_eq_serial (P := fun _ => P) hfmt hm hfresh (ss := ps.map (Part.call update)) (by
    intro s hs
    obtain ⟨q, hq, rfl⟩ := List.mem_map.mp hs
    obtain ⟨a, b, e, j⟩ := hps q hq
    refine bounded_sound (P := fun _ => P) hcomp hc hP hB a b ⟨oldKnown, rfl, ?_⟩ j (fun _ => hc) (fun _ => hP) hsize
    show Disciplined _ _ _ _ (update _ q.steps) _
    rw [hu]
    exact .ghostswap rfl (((hd q.ghosts e).steps q.steps).mono ⟨fun _ => id, fun _ hk => Or.inl hk⟩)) hfile hσ
  rw [serialRun_calls (m.serial fmt.d) body ps _ update hu] at h1
  exact ⟨σ', h1, h2, h3⟩

/-! ## The examples -/

section Dense
variable {α : Type} [Zero α] [One α] [Add α] [Sub α] [Mul α] [Div α] {fmt : Format (List α) D} (hcomp : fmt.comp = none) {c : Codec α} (hcell : fmt.cell = arrayCell c) (hname : newline ∉ fmt.name)
  (hacc : checkType fmt.name fmt.name = .ok ()) {m : Meta D} (hm : m.Good fmt) (hfresh : (fmt.fresh m.fields).length = m.fields.toNat)
  (hsize : sites (m.serial fmt.d) * (4 + m.fields.toNat * c.width) + 16 * fmt.d + 16 < 2 ^ 31 - 1) (conv : D → α) {ps : List (Part (List α))}
  (hps : Runs m fmt.d (fun v => v.length = m.fields.toNat) ps) {F : (Nat → Int) → List α} {file : List Byte} (hfile : Denotes fmt m F file) {σ : Grids (List α)}
  (hσ : Holds m fmt.d (fun _ v => v.length = m.fields.toNat) F σ)
include hcomp hcell hname hacc hm hfresh hsize hps hfile hσ

/-- **C97, isotropic phase field** (grain growth and Zener pinning): the cells are vectors with as many entries as the file says. -/
theorem isoDense_restarts (value : List α → List α → Nat → α) :
    let kern := isoKernel fmt.d m.fields.toNat (fun j => conv (m.spacing fmt.dx0 j)) value
    let update := fun dx => evolveUpdate (isoKernel fmt.d m.fields.toNat (fun j => conv (dx j)) value)
    ∃ σ', serialRun (m.serial fmt.d) (repeatProg [.loop 1 kern, .swap 0 1, .ghostswap 0] (ps.map Part.steps).sum) σ = .ok σ' ∧ (∃ last, Chain fmt (ps.map (Part.call update)) file last) ∧
      ∀ last, Chain fmt (ps.map (Part.call update)) file last → Denotes fmt m (cellAt (m.serial fmt.d) (σ' 0)) last := by
  intro kern update
  have hn : m.fields.toNat < 2 ^ 31 := by have := hm.fields; unfold IsInt at this; omega
  refine restarts hcomp hname hacc hm (P := fun v => v.length = m.fields.toNat) (by rw [hcell]; exact vectorCell_roundTrips c) (fun v h => ?_) (B := 4 + m.fields.toNat * c.width) (fun v h => ?_) hfresh hsize _ _
    (fun n => rfl) (fun gh hgh => evolve_disciplined hgh rfl (isoKernel_reads _ value) (isoKernel_keeps _ value)) hps hfile hσ
  · rw [hcell]; show v.length < 2 ^ 31; rw [h]; exact hn
  · rw [hcell]; show 4 + v.length * c.width ≤ _; rw [h]

/-- **C97, anisotropic phase field** (grain growth and Zener pinning). -/
theorem anisoDense_restarts (pos : α → Bool) (value : List Int → List α → List α → Nat → α) :
    let kern := anisoKernel pos fmt.d m.fields.toNat (fun j => conv (m.spacing fmt.dx0 j)) value
    let update := fun dx => evolveUpdate (anisoKernel pos fmt.d m.fields.toNat (fun j => conv (dx j)) value)
    ∃ σ', serialRun (m.serial fmt.d) (repeatProg [.loop 1 kern, .swap 0 1, .ghostswap 0] (ps.map Part.steps).sum) σ = .ok σ' ∧ (∃ last, Chain fmt (ps.map (Part.call update)) file last) ∧
      ∀ last, Chain fmt (ps.map (Part.call update)) file last → Denotes fmt m (cellAt (m.serial fmt.d) (σ' 0)) last := by
  intro kern update
  have hn : m.fields.toNat < 2 ^ 31 := by have := hm.fields; unfold IsInt at this; omega
  refine restarts hcomp hname hacc hm (P := fun v => v.length = m.fields.toNat) (by rw [hcell]; exact vectorCell_roundTrips c) (fun v h => ?_) (B := 4 + m.fields.toNat * c.width) (fun v h => ?_) hfresh hsize _ _
    (fun n => rfl) (fun gh hgh => evolve_disciplined hgh rfl (anisoKernel_reads pos _ value) (anisoKernel_keeps pos _ value)) hps hfile hσ
  · rw [hcell]; show v.length < 2 ^ 31; rw [h]; exact hn
  · rw [hcell]; show 4 + v.length * c.width ≤ _; rw [h]

end Dense

section SparseCells
variable {α : Type} [Zero α] [One α] [Add α] [Sub α] [Mul α] [Div α]

/-- `update` of the sparse examples as one program: `grid<dim,sparse<T> > newGrid(oldGrid)` makes cells without entries (`isotropic/sparsePF/graingrowth.cpp` 67, `anisotropic/sparsePF/graingrowth.cpp` 99,
`zener_pinning/anisotropic/sparsePF/zener.cpp` 108), then `evolveUpdate`. Only nodes of `newGrid` are read before they are written, so it is enough to empty the nodes. -/
def sparseUpdate (d : Nat) (dx : Nat → α) (f : Sparse.Cell Int → Sparse.Cell α → Sparse.Cell α → Sparse.Cell α → Sparse.Cell α) (steps : Nat) : List (Stmt (Sparse.Cell α)) :=
  .loop 1 (fun _ _ => .ok []) :: evolveUpdate (sparseKernel d dx f) steps

theorem sparseUpdate_disciplined {d : Nat} {gh : Int} (hgh : 1 ≤ gh) {I : Finset Int} (dx : Nat → α) {f : Sparse.Cell Int → Sparse.Cell α → Sparse.Cell α → Sparse.Cell α → Sparse.Cell α}
    (hf : LocalFields f) (steps : Nat) : Disciplined d gh (fun _ => Lists I) oldKnown (sparseUpdate d dx f steps) bothKnown := by
  refine .loop [] (fun _ _ _ _ _ _ => rfl) (fun _ _ _ => ⟨[], ⟨by simp [Sparse.Ok, Sparse.keys], by simp [Sparse.keys]⟩, rfl⟩) (by simp) (by simp) (.ghostswap ?_ ?_)
  · exact Or.inl rfl
  · refine ((sparse_disciplined hgh rfl (sparseKernel_reads dx f) (sparseKernel_keeps dx hf)).steps steps).mono ⟨?_, ?_⟩
    · exact fun k hk => hk
    · exact fun k hk => Or.inr hk

/-- **C97, sparse phase field.** -/
theorem sparse_restarts {fmt : Format (Sparse.Cell α) D} (hcomp : fmt.comp = none) {c : Codec α} {pad : Nat} {pad0 : { l : List Byte // l.length = pad }} (hcell : fmt.cell = sparseWire c pad pad0)
    (hname : newline ∉ fmt.name) (hacc : checkType fmt.name fmt.name = .ok ()) {m : Meta D} (hm : m.Good fmt) {I : Finset Int} (hI : I.card < 2 ^ 31) (hint : ∀ k ∈ I, -2 ^ 31 ≤ k ∧ k < 2 ^ 31)
    (hfresh : fmt.fresh m.fields = []) (hsize : sites (m.serial fmt.d) * (4 + I.card * (4 + pad + c.width)) + 16 * fmt.d + 16 < 2 ^ 31 - 1) (conv : D → α)
    {f : Sparse.Cell Int → Sparse.Cell α → Sparse.Cell α → Sparse.Cell α → Sparse.Cell α} (hf : LocalFields f) {ps : List (Part (Sparse.Cell α))} (hps : Runs m fmt.d (Lists I) ps)
    {F : (Nat → Int) → Sparse.Cell α} {file : List Byte} (hfile : Denotes fmt m F file) {σ : Grids (Sparse.Cell α)} (hσ : Holds m fmt.d (fun _ => Lists I) F σ) :
    let update := fun dx => sparseUpdate fmt.d (fun j => conv (dx j)) f
    ∃ σ', serialRun (m.serial fmt.d) ((ps.map Part.steps).flatMap fun n => sparseUpdate fmt.d (fun j => conv (m.spacing fmt.dx0 j)) f n) σ = .ok σ' ∧
      (∃ last, Chain fmt (ps.map (Part.call update)) file last) ∧ ∀ last, Chain fmt (ps.map (Part.call update)) file last → Denotes fmt m (cellAt (m.serial fmt.d) (σ' 0)) last := by
  intro update
  have hb := sparse_buffers c pad pad0 hI hint
  have hfmt : fmt.Good (Lists I) := ⟨by rw [hcell]; exact hb.1, by rw [hcomp]; rintro z ⟨⟩, hname, hacc, by rw [hcell]; exact hb.2⟩
  have hempty : Lists I ([] : Sparse.Cell α) := ⟨by simp [Sparse.Ok, Sparse.keys], by simp [Sparse.keys]⟩
  obtain ⟨σ', h1, h2, h3⟩ := chain_eq_serial (P := fun _ => Lists I) hfmt hm (by rw [hfresh]; exact hempty) (ss := ps.map (Part.call update)) (by
    intro s hs
    obtain ⟨q, hq, rfl⟩ := List.mem_map.mp hs
    obtain ⟨a, b, e, j⟩ := hps q hq
    refine bounded_sound (P := fun _ => Lists I) hcomp hfmt.cell hfmt.valid (B := 4 + I.card * (4 + pad + c.width)) (fun v h => ?_) a b ⟨bothKnown, Or.inl rfl, sparseUpdate_disciplined e _ hf q.steps⟩ j (fun _ => hfmt.cell) (fun _ => hfmt.valid) hsize
    rw [hcell]
    show 4 + (ConvertFile.items pad0 v).length * (4 + pad + c.width) ≤ _
    have h1 : v.length = (Sparse.keys v).toFinset.card := by rw [List.toFinset_card_of_nodup h.1]; simp [Sparse.keys]
    have h2 := Finset.card_le_card (fun k hk => h.2 k (List.mem_toFinset.1 hk) : (Sparse.keys v).toFinset ⊆ I)
    have h3 : (ConvertFile.items pad0 v).length ≤ I.card := by rw [ConvertFile.items, List.length_map]; omega
    have := Nat.mul_le_mul_right (4 + pad + c.width) h3
    omega) hfile hσ
  refine ⟨σ', ?_, h2, h3⟩
  rw [← h1, List.flatMap_map, List.flatMap_map]
  rfl

end SparseCells

/-! ## Examples -/

/-- Twelve nodes on a line with vectors of three bytes. -/
def lineV : Meta { n : Int // -2 ^ 31 ≤ n ∧ n < 2 ^ 31 } := ⟨3, [(0, 12)], [⟨1, by decide⟩], [(.mirror, .neumann)]⟩

def vectors : Format (List Byte) { n : Int // -2 ^ 31 ≤ n ∧ n < 2 ^ 31 } :=
  ⟨none, arrayCell byteCodec, fun n => List.replicate n.toNat 0, wholeDecimal, ⟨1, by decide⟩, gridName (ascii "vector:char"), 1⟩

def sparses : Format (Sparse.Cell Byte) { n : Int // -2 ^ 31 ≤ n ∧ n < 2 ^ 31 } :=
  ⟨none, sparseWire byteCodec 3 ⟨[0, 0, 0], rfl⟩, fun _ => [], wholeDecimal, ⟨1, by decide⟩, gridName (ascii "sparse:char"), 1⟩

theorem lineV_good : lineV.Good vectors := by
  refine ⟨by decide, ⟨by decide, by decide⟩, rfl, rfl, rfl, ⟨by decide, by decide⟩, ?_, ?_, fun _ _ => rfl⟩
  · intro j hj; obtain rfl : j = 0 := by change j < 1 at hj; omega
    decide
  · intro j hj; obtain rfl : j = 0 := by change j < 1 at hj; omega
    exact ⟨⟨by decide, by decide⟩, ⟨by decide, by decide⟩⟩

theorem lineV_sparse : lineV.Good sparses := ⟨lineV_good.dim, lineV_good.dimInt, rfl, rfl, rfl, lineV_good.fields, lineV_good.box, lineV_good.ints, fun _ _ => rfl⟩

/-- A file of vectors, two steps on three ranks with two layers of ghosts, four steps serially, one step on two ranks. -/
example (value : List Byte → List Byte → Nat → Byte) (conv : { n : Int // -2 ^ 31 ≤ n ∧ n < 2 ^ 31 } → Byte) :
    let v : List Byte := [1, 2, 3]
    let ps : List (Part (List Byte)) := [⟨some 3, 2, 2, fun _ _ _ => v⟩, ⟨none, 1, 4, fun _ _ _ => v⟩, ⟨some 2, 1, 1, fun _ _ _ => v⟩]
    let update := fun dx => evolveUpdate (isoKernel 1 3 (fun j => conv (dx j)) value)
    ∃ file last σ', outputBytes none (arrayCell byteCodec) wholeDecimal (gridName (ascii "vector:char")) 1 3 lineV.g0 lineV.g1
        (lineV.spacing ⟨1, by decide⟩) [⟨lineV.serial 1, fun o => [o.toNat.toUInt8, 7, 5]⟩] = .ok file ∧
      serialRun (lineV.serial 1) (repeatProg [.loop 1 (isoKernel 1 3 (fun j => conv (lineV.spacing ⟨1, by decide⟩ j)) value), .swap 0 1, .ghostswap 0] 7) (fun _ o => [o.toNat.toUInt8, 7, 5]) = .ok σ' ∧
      Chain vectors (ps.map (Part.call update)) file last ∧ Denotes vectors lineV (cellAt (lineV.serial 1) (σ' 0)) last := by
  intro v ps update
  have hg := lineV_good
  have hwf : (lineV.serial 1).Wf := serial_wf (line_ok (Or.inl ⟨rfl, rfl⟩))
  have hsites : sites (lineV.serial 1) = 12 := by decide
  obtain ⟨file, e1, e2⟩ := output_denotes vectors (vectorCell_roundTrips byteCodec) (by rintro z ⟨⟩) hg.dim hg.dimInt (by decide) hg.fields hg.box hg.ints (lineV.spacing vectors.dx0)
    (serial_run (c := arrayCell byteCodec) hg.box lineV.B0 lineV.B1 (data := fun o => [o.toNat.toUInt8, 7, 5]) (fun _ _ _ => by show 3 < 2 ^ 31; decide) (by
      intro n hn
      have := bounded_size (arrayCell byteCodec) (P := fun v => v.length = 3) (B := 7) (fun v h => by show 4 + v.length * 1 ≤ 7; omega) hwf (fun _ _ _ => rfl) hn
      rw [hsites] at this
      omega))
    (by rintro w _ z raw ⟨⟩)
  rw [Meta.of_self hg] at e2
  obtain ⟨σ', h1, ⟨last, h2⟩, h3⟩ := isoDense_restarts (fmt := vectors) rfl (c := byteCodec) rfl (by decide) (by decide) hg (by decide)
    (by change sites (lineV.serial 1) * 7 + 16 * 1 + 16 < 2 ^ 31 - 1; rw [hsites]; decide) conv (ps := ps) (by
      intro q hq
      have : q = ⟨some 3, 2, 2, fun _ _ _ => v⟩ ∨ q = ⟨none, 1, 4, fun _ _ _ => v⟩ ∨ q = ⟨some 2, 1, 1, fun _ _ _ => v⟩ := by simpa [ps] using hq
      rcases this with rfl | rfl | rfl
      · exact ⟨line_ok (Or.inr (Or.inl ⟨rfl, rfl⟩)), show 3 < 2 ^ 31 by decide, show (1 : Int) ≤ 2 by decide, fun _ _ _ => rfl⟩
      · exact ⟨line_ok (Or.inl ⟨rfl, rfl⟩), show 1 < 2 ^ 31 by decide, show (1 : Int) ≤ 1 by decide, fun _ _ _ => rfl⟩
      · exact ⟨line_ok (Or.inr (Or.inr ⟨rfl, rfl⟩)), show 2 < 2 ^ 31 by decide, show (1 : Int) ≤ 1 by decide, fun _ _ _ => rfl⟩) e2 (σ := fun _ o => [o.toNat.toUInt8, 7, 5])
    ⟨fun _ _ => rfl, fun _ _ _ _ => rfl⟩ value
  exact ⟨file, last, σ', e1, h1, h2, h3 last h2⟩

/-- A file of sparse cells with at most two of the fields 4 and 9, three steps on two ranks, then two steps serially; the right-hand side keeps the old entries. -/
example (conv : { n : Int // -2 ^ 31 ≤ n ∧ n < 2 ^ 31 } → Byte) :
    let ps : List (Part (Sparse.Cell Byte)) := [⟨some 2, 1, 3, fun _ _ _ => []⟩, ⟨none, 1, 2, fun _ _ _ => []⟩]
    let f : Sparse.Cell Int → Sparse.Cell Byte → Sparse.Cell Byte → Sparse.Cell Byte → Sparse.Cell Byte := fun _ _ y _ => y
    let start : Int → Sparse.Cell Byte := fun o => if o < 5 then [(4, 1)] else [(9, 2), (4, 3)]
    ∃ file last σ', outputBytes none sparses.cell wholeDecimal (gridName (ascii "sparse:char")) 1 3 lineV.g0 lineV.g1 (lineV.spacing ⟨1, by decide⟩) [⟨lineV.serial 1, start⟩] = .ok file ∧
      serialRun (lineV.serial 1) ([3, 2].flatMap fun n => sparseUpdate 1 (fun j => conv (lineV.spacing ⟨1, by decide⟩ j)) f n) (fun _ => start) = .ok σ' ∧
      Chain sparses (ps.map (Part.call fun dx => sparseUpdate 1 (fun j => conv (dx j)) f)) file last ∧ Denotes sparses lineV (cellAt (lineV.serial 1) (σ' 0)) last := by
  intro ps f start
  have hg := lineV_sparse
  have hwf : (lineV.serial 1).Wf := serial_wf (line_ok (Or.inl ⟨rfl, rfl⟩))
  have hsites : sites (lineV.serial 1) = 12 := by decide
  have hI : ({4, 9} : Finset Int).card < 2 ^ 31 := by decide
  have hint : ∀ k ∈ ({4, 9} : Finset Int), -2 ^ 31 ≤ k ∧ k < 2 ^ 31 := by decide
  have hb := sparse_buffers byteCodec 3 ⟨[0, 0, 0], rfl⟩ hI hint
  have hstart : ∀ o, Lists ({4, 9} : Finset Int) (start o) := by
    intro o
    simp only [start]
    split_ifs <;> exact ⟨by unfold Sparse.Ok Sparse.keys; decide, by unfold Sparse.keys; decide⟩
  obtain ⟨file, e1, e2⟩ := output_denotes sparses hb.1 (by rintro z ⟨⟩) hg.dim hg.dimInt (by decide) hg.fields hg.box hg.ints (lineV.spacing sparses.dx0)
    (serial_run (c := sparses.cell) hg.box lineV.B0 lineV.B1 (data := start) (fun _ _ _ => hb.2 _ (hstart _)) (by
      intro n hn
      have := bounded_size sparses.cell (P := fun v => ∃ o, v = start o) (B := 20) (fun v h => by
        obtain ⟨o, rfl⟩ := h
        simp only [start]
        split_ifs <;> decide) hwf (fun o _ _ => ⟨o, rfl⟩) hn
      rw [hsites] at this
      omega))
    (by rintro w _ z raw ⟨⟩)
  rw [Meta.of_self hg] at e2
  obtain ⟨σ', h1, ⟨last, h2⟩, h3⟩ := sparse_restarts (fmt := sparses) rfl (c := byteCodec) (pad0 := ⟨[0, 0, 0], rfl⟩) rfl (by decide) (by decide) hg hI hint rfl
    (by change sites (lineV.serial 1) * 20 + 16 * 1 + 16 < 2 ^ 31 - 1; rw [hsites]; decide) conv (f := f) (fun _ _ y _ _ h _ => ⟨h, fun k hk => Or.inr (Or.inl hk)⟩) (ps := ps) (by
      intro q hq
      have : q = ⟨some 2, 1, 3, fun _ _ _ => []⟩ ∨ q = ⟨none, 1, 2, fun _ _ _ => []⟩ := by simpa [ps] using hq
      have he : Lists ({4, 9} : Finset Int) ([] : Sparse.Cell Byte) := ⟨by simp [Sparse.Ok, Sparse.keys], by simp [Sparse.keys]⟩
      rcases this with rfl | rfl
      · exact ⟨line_ok (Or.inr (Or.inr ⟨rfl, rfl⟩)), show 2 < 2 ^ 31 by decide, show (1 : Int) ≤ 1 by decide, fun _ _ _ => he⟩
      · exact ⟨line_ok (Or.inl ⟨rfl, rfl⟩), show 1 < 2 ^ 31 by decide, show (1 : Int) ≤ 1 by decide, fun _ _ _ => he⟩) e2 (σ := fun _ => start)
    ⟨fun _ _ => rfl, fun _ _ _ _ => hstart _⟩
  exact ⟨file, last, σ', e1, h1, h2, h3 last h2⟩

end MMSP.Sessions
