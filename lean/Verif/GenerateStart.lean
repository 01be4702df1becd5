import Verif.GenerateRanksProps
/-!
# Property C105: from `generate` to the last restart

The grain growth examples have deterministic initial conditions. `MMSP.main.hpp` 91-122 (`--example`) writes them to a file on some number of ranks; 123-220 read a file, call `update` and write the
next file, again on some number of ranks. The theorems join both.
-/

namespace MMSP.GenerateRanks

open Generate (inside insideSparse quarter)
open DensePF (pass)
open Ghost FileIO ParallelRun Sessions

section
variable {T D α : Type}

/-! ## Model -/

/-- `set(initGrid(i),1) = 1.0` or `set(initGrid(i),0) = 1.0`, `grain_growth/isotropic/sparsePF/graingrowth.cpp` 19-24, 33-38, 47-52 -/
def isoSparseNode [Zero α] [One α] (d : Nat) (x : Nat → Int) (c : Sparse.Cell α) : Outcome (Sparse.Cell α) := .ok (Sparse.update c (if insideSparse d x then 1 else 0) fun _ => 1)

/-- `grain_growth/anisotropic/sparsePF/graingrowth.cpp` 20-31, 41-56, 66-81 -/
def anisoSparseNode [Zero α] [One α] (d : Nat) (x : Nat → Int) (c : Sparse.Cell α) : Outcome (Sparse.Cell α) := .ok (Sparse.update c (quarter d x) fun _ => 1)

/-- `file` is what `generate` leaves behind, with `ranks` as in `Session`: `none` for the serial program, otherwise that many ranks, whose writes take effect in any order.
`include/MMSP.main.hpp` 91-122; the loops over the nodes are `node`, `new r` is what `new T[n]` gave rank `r`. -/
def Started (fmt : Format T D) (m : Meta D) (ghosts : Int) (node : (Nat → Int) → T → Outcome T) (new : Int → Int → T) (ranks : Option Nat) (file : List Byte) : Prop :=
  match ranks with
  | none => generateSerial fmt m (nodewise .serial (m.serial fmt.d) node (new 0)) = .ok file
  | some np => ∃ writes, generateFile fmt m ghosts np (fun r => nodewise .mpi ((m.world fmt.d ghosts np).shape r) node (new r)) = .ok writes ∧ ∃ W, W.Perm writes ∧ ∀ i, written W i = file[i]?

/-! ## One field for any number of ranks -/

section
variable {fmt : Format T D} {m : Meta D} {P : T → Prop} (hfmt : fmt.Good P) (hm : m.Good fmt) {ghosts : Int} {ranks : Option Nat}
  (hok : (m.world fmt.d ghosts (ranks.getD 1)).Ok (ranks.getD 1)) (hnp : ranks.getD 1 < 2 ^ 31) (hs : Fits fmt P (m.serial fmt.d))
  (hw : ∀ np, ranks = some np → ∀ r, IsRank np r → Writes fmt P ((m.world fmt.d ghosts np).shape r)) {node : (Nat → Int) → T → Outcome T} {val : (Nat → Int) → T → T}
  (hv : ∀ x y c, (∀ j, j < fmt.d → x j = y j) → val x c = val y c) (hn : ∀ x c, P c → node x c = .ok (val x c) ∧ P (val x c)) {new : Int → Int → T} (hnew : ∀ r o, P (new r o))
  {F : (Nat → Int) → T} (hF : ∀ x r o, val x (new r o) = F x)
include hfmt hm hok hnp hs hw hv hn hnew hF

/-- **C105.** The loops of `generate`, each of which looks only at the node it fills: on any number of ranks, and serially, a file is written, and every such file holds the same field. -/
theorem started : (∃ file, Started fmt m ghosts node new ranks file) ∧ ∀ file, Started fmt m ghosts node new ranks file → Denotes fmt m F file := by
  have hnode : ∀ bd g, g.Wf → g.dim = fmt.d → (bd = .serial → g.ghosts = 0) → ∀ r, ∃ a, nodewise bd g node (new r) = .ok a ∧ (∀ q, 0 ≤ q → q < g.cells → P (a q)) ∧ ∀ x, g.IsNode x → cellAt g a x = F x := by
    intro bd g hg hd hser r
    obtain ⟨a, h1, h2, h3⟩ := nodewise_spec (bd := bd) hg hser (fun x y c h => hv x y c fun j hj => h j (by rw [hd]; exact hj)) hn (new r) fun q _ _ => hnew r q
    refine ⟨a, h1, h2, fun x hx => ?_⟩
    rw [h3 x hx]
    exact hF x r _
  cases ranks with
  | none =>
    obtain ⟨a, h1, h2, h3⟩ := hnode .serial (m.serial fmt.d) (serial_wf hok) rfl (fun _ => rfl) 0
    obtain ⟨out, e, hd⟩ := serial_denotes hfmt hm hs h1 h2
    refine ⟨⟨out, e⟩, fun file hfile => ?_⟩
    obtain rfl := Outcome.ok.inj (e.symm.trans hfile)
    exact hd.congr h3
  | some np =>
    replace hok : (m.world fmt.d ghosts np).Ok np := hok
    have hz : ∀ r, ∃ a, IsRank np r → let g := (m.world fmt.d ghosts np).shape r; nodewise .mpi g node (new r) = .ok a ∧ (∀ q, 0 ≤ q → q < g.cells → P (a q)) ∧ ∀ x, g.IsNode x → cellAt g a x = F x := by
      intro r
      by_cases hr : IsRank np r
      · obtain ⟨a, h⟩ := hnode .mpi _ (shape_wf hok hr) rfl (fun e => by cases e) r
        exact ⟨a, fun _ => h⟩
      · exact ⟨new r, fun h => absurd h hr⟩
    choose data hdata using hz
    obtain ⟨writes, e, out, ho, hd⟩ := generate_denotes hfmt hm hok hnp (hw np rfl) (gen := fun r => nodewise .mpi ((m.world fmt.d ghosts np).shape r) node (new r)) (fun r hr => (hdata r hr).1)
      (fun r hr => (hdata r hr).2.1) (F := F) (fun r hr => (hdata r hr).2.2)
    refine ⟨⟨out, writes, e, writes, .refl _, ho _ (.refl _)⟩, ?_⟩
    rintro file ⟨writes', e', W, hW, hi⟩
    obtain rfl := Outcome.ok.inj (e.symm.trans e')
    obtain rfl : out = file := List.ext_getElem? fun i => (ho W hW i).symm.trans (hi i)
    exact hd

end

/-! ## Grain growth with vectors -/

theorem insideSparse_congr {d : Nat} (hd : 0 < d) {x y : Nat → Int} (h : ∀ j, j < d → x j = y j) : insideSparse d x = insideSparse d y := by
  unfold insideSparse
  rw [h 0 hd, inside_congr hd h]

theorem quarter_congr {d : Nat} (hd : 0 < d) {x y : Nat → Int} (h : ∀ j, j < d → x j = y j) : quarter d x = quarter d y := by
  unfold quarter
  by_cases h1 : d = 1
  · rw [if_pos h1, if_pos h1, h 0 hd]
  · rw [if_neg h1, if_neg h1, h 0 hd, h 1 (by omega)]

section Dense
variable [Zero α] [One α] [Add α] [Sub α] [Mul α] [Div α] {fmt : Format (List α) D} (hcomp : fmt.comp = none) {c : Codec α} (hcell : fmt.cell = arrayCell c) (hname : newline ∉ fmt.name)
  (hacc : checkType fmt.name fmt.name = .ok ()) {m : Meta D} (hm : m.Good fmt)
  (hsize : sites (m.serial fmt.d) * (4 + m.fields.toNat * c.width) + 16 * fmt.d + 16 < 2 ^ 31 - 1)
include hcomp hcell hname hacc hm hsize

omit [Zero α] [One α] [Add α] [Sub α] [Mul α] [Div α] in
theorem dense_started {ghosts : Int} {ranks : Option Nat} (hok : (m.world fmt.d ghosts (ranks.getD 1)).Ok (ranks.getD 1)) (hnp : ranks.getD 1 < 2 ^ 31)
    {node : (Nat → Int) → List α → Outcome (List α)} {F : (Nat → Int) → List α} (hv : ∀ x y, (∀ j, j < fmt.d → x j = y j) → F x = F y)
    (hn : ∀ x c, c.length = m.fields.toNat → node x c = .ok (F x) ∧ (F x).length = m.fields.toNat) {new : Int → Int → List α} (hnew : ∀ r o, (new r o).length = m.fields.toNat) :
    ((∃ file, Started fmt m ghosts node new ranks file) ∧ ∀ file, Started fmt m ghosts node new ranks file → Denotes fmt m F file) ∧
      ∃ a, nodewise .serial (m.serial fmt.d) node (new 0) = .ok a ∧ Holds m fmt.d (fun _ v => v.length = m.fields.toNat) F fun _ => a := by
  have hlen : m.fields.toNat < 2 ^ 31 := by have := hm.fields; unfold IsInt at this; omega
  have hfmt : fmt.Good fun v => v.length = m.fields.toNat := ⟨by rw [hcell]; exact vectorCell_roundTrips c, by rw [hcomp]; rintro z ⟨⟩, hname, hacc, fun v h => by
    rw [hcell]; show v.length < 2 ^ 31; rw [h]; exact hlen⟩
  have hB : ∀ v : List α, v.length = m.fields.toNat → fmt.cell.size v ≤ 4 + m.fields.toNat * c.width := fun v h => by rw [hcell]; show 4 + v.length * c.width ≤ _; rw [h]
  refine ⟨started hfmt hm hok hnp (bounded_fits hcomp hfmt.cell hfmt.valid hB (serial_wf hok) hsize).1 (fun np e r hr => ?_) (val := fun x _ => F x) (fun x y _ h => hv x y h) hn hnew fun _ _ _ => rfl, ?_⟩
  · subst e
    replace hok : (m.world fmt.d ghosts np).Ok np := hok
    have := Nat.mul_le_mul_right (4 + m.fields.toNat * c.width) (sites_rank hok hr)
    refine bounded_fits hcomp hfmt.cell hfmt.valid hB (shape_wf hok hr) ?_
    show _ + 16 * fmt.d + 16 < _
    omega
  · obtain ⟨a, h1, h2, h3⟩ := nodewise_spec (bd := .serial) (g := m.serial fmt.d) (serial_wf hok) (fun _ => rfl) (val := fun x _ => F x) (fun x y _ h => hv x y h) hn (new 0) fun q _ _ => hnew 0 q
    exact ⟨a, h1, h3, fun _ => h2⟩

variable (hfresh : (fmt.fresh m.fields).length = m.fields.toNat) {ghosts : Int} {ranks : Option Nat} (hok : (m.world fmt.d ghosts (ranks.getD 1)).Ok (ranks.getD 1)) (hnp : ranks.getD 1 < 2 ^ 31)
  {new : Int → Int → List α} (hnew : ∀ r o, (new r o).length = m.fields.toNat) (conv : D → α) {ps : List (Sessions.Part (List α))} (hps : Runs m fmt.d (fun v => v.length = m.fields.toNat) ps)
include hfresh hok hnp hnew hps

/-- **C105, isotropic grain growth.** `generate` on `n0` ranks, then `k1` steps on `n1` ranks, `k2` steps on `n2` ranks and so on: everything succeeds, and every file that can come out holds the
result of `k1 + k2 + …` steps of the serial program from the serial `generate`. -/
theorem iso_whole (hfields : m.fields = 2) (value : List α → List α → Nat → α) :
    let kern := isoKernel fmt.d m.fields.toNat (fun j => conv (m.spacing fmt.dx0 j)) value
    let update := fun dx => evolveUpdate (isoKernel fmt.d m.fields.toNat (fun j => conv (dx j)) value)
    ∃ a σ', nodewise .serial (m.serial fmt.d) (isoNode fmt.d) (new 0) = .ok a ∧
      serialRun (m.serial fmt.d) (repeatProg [.loop 1 kern, .swap 0 1, .ghostswap 0] (ps.map Sessions.Part.steps).sum) (fun _ => a) = .ok σ' ∧
      (∃ first last, Started fmt m ghosts (isoNode fmt.d) new ranks first ∧ Chain fmt (ps.map (Sessions.Part.call update)) first last) ∧
      ∀ first last, Started fmt m ghosts (isoNode fmt.d) new ranks first → Chain fmt (ps.map (Sessions.Part.call update)) first last → Denotes fmt m (cellAt (m.serial fmt.d) (σ' 0)) last := by
  intro kern update
  obtain ⟨⟨⟨first, h1⟩, h2⟩, a, h3, h4⟩ := dense_started hcomp hcell hname hacc hm hsize hok hnp (node := isoNode fmt.d) (F := fun x => if inside fmt.d x then [0, 1] else [1, 0])
    (fun x y h => by rw [inside_congr hm.dim h]) (fun x v h => by
      rw [hfields] at h ⊢
      match v, h with
      | [a, b], _ => unfold isoNode; cases inside fmt.d x <;> exact ⟨rfl, rfl⟩) hnew
  obtain ⟨σ', e, ⟨last, hl⟩, -⟩ := isoDense_restarts hcomp hcell hname hacc hm hfresh hsize conv hps (h2 first h1) h4 value
  refine ⟨a, σ', h3, e, ⟨first, last, h1, hl⟩, fun first' last' h1' hl' => ?_⟩
  obtain ⟨σ'', e', -, h⟩ := isoDense_restarts hcomp hcell hname hacc hm hfresh hsize conv hps (h2 first' h1') h4 value
  obtain rfl := Outcome.ok.inj (e.symm.trans e')
  exact h last' hl'

/-- **C105, anisotropic grain growth.** -/
theorem aniso_whole (hfields : m.fields = 4) (pos : α → Bool) (value : List Int → List α → List α → Nat → α) :
    let kern := anisoKernel pos fmt.d m.fields.toNat (fun j => conv (m.spacing fmt.dx0 j)) value
    let update := fun dx => evolveUpdate (anisoKernel pos fmt.d m.fields.toNat (fun j => conv (dx j)) value)
    ∃ a σ', nodewise .serial (m.serial fmt.d) (anisoNode fmt.d) (new 0) = .ok a ∧
      serialRun (m.serial fmt.d) (repeatProg [.loop 1 kern, .swap 0 1, .ghostswap 0] (ps.map Sessions.Part.steps).sum) (fun _ => a) = .ok σ' ∧
      (∃ first last, Started fmt m ghosts (anisoNode fmt.d) new ranks first ∧ Chain fmt (ps.map (Sessions.Part.call update)) first last) ∧
      ∀ first last, Started fmt m ghosts (anisoNode fmt.d) new ranks first → Chain fmt (ps.map (Sessions.Part.call update)) first last → Denotes fmt m (cellAt (m.serial fmt.d) (σ' 0)) last := by
  intro kern update
  obtain ⟨⟨⟨first, h1⟩, h2⟩, a, h3, h4⟩ := dense_started hcomp hcell hname hacc hm hsize hok hnp (node := anisoNode fmt.d) (F := fun x => ([0, 0, 0, 0] : List α).set (quarter fmt.d x) 1)
    (fun x y h => by rw [quarter_congr hm.dim h]) (fun x v h => by
      rw [hfields] at h ⊢
      match v, h with
      | [a, b, e, f], _ =>
        have hq : quarter fmt.d x < 4 := by unfold quarter; dsimp only; split_ifs <;> decide
        exact ⟨if_pos hq, by rw [List.length_set]; rfl⟩) hnew
  obtain ⟨σ', e, ⟨last, hl⟩, -⟩ := anisoDense_restarts hcomp hcell hname hacc hm hfresh hsize conv hps (h2 first h1) h4 pos value
  refine ⟨a, σ', h3, e, ⟨first, last, h1, hl⟩, fun first' last' h1' hl' => ?_⟩
  obtain ⟨σ'', e', -, h⟩ := anisoDense_restarts hcomp hcell hname hacc hm hfresh hsize conv hps (h2 first' h1') h4 pos value
  obtain rfl := Outcome.ok.inj (e.symm.trans e')
  exact h last' hl'

end Dense

/-! ## Grain growth with sparse cells -/

section SparseCells
variable [Zero α] [One α] [Add α] [Sub α] [Mul α] [Div α] {fmt : Format (Sparse.Cell α) D} (hcomp : fmt.comp = none) {c : Codec α} {pad : Nat} {pad0 : { l : List Byte // l.length = pad }}
  (hcell : fmt.cell = sparseWire c pad pad0) (hname : newline ∉ fmt.name) (hacc : checkType fmt.name fmt.name = .ok ()) {m : Meta D} (hm : m.Good fmt) {I : Finset Int} (hI : I.card < 2 ^ 31)
  (hint : ∀ k ∈ I, -2 ^ 31 ≤ k ∧ k < 2 ^ 31) (hfresh : fmt.fresh m.fields = []) (hsize : sites (m.serial fmt.d) * (4 + I.card * (4 + pad + c.width)) + 16 * fmt.d + 16 < 2 ^ 31 - 1)
  {ghosts : Int} {ranks : Option Nat} (hok : (m.world fmt.d ghosts (ranks.getD 1)).Ok (ranks.getD 1)) (hnp : ranks.getD 1 < 2 ^ 31) (conv : D → α)
  {f : Sparse.Cell Int → Sparse.Cell α → Sparse.Cell α → Sparse.Cell α → Sparse.Cell α} (hf : LocalFields f) {ps : List (Sessions.Part (Sparse.Cell α))} (hps : Runs m fmt.d (Lists I) ps)
include hcomp hcell hname hacc hm hI hint hfresh hsize hok hnp hf hps

theorem sparse_whole {field : (Nat → Int) → Int} (hv : ∀ x y, (∀ j, j < fmt.d → x j = y j) → field x = field y) (hfield : ∀ x, field x ∈ I) :
    let node := fun x (c : Sparse.Cell α) => Outcome.ok (Sparse.update c (field x) fun _ => 1)
    let update := fun dx => sparseUpdate fmt.d (fun j => conv (dx j)) f
    ∃ a σ', nodewise .serial (m.serial fmt.d) node (fun _ => []) = .ok a ∧ (∀ x, (m.serial fmt.d).IsNode x → cellAt (m.serial fmt.d) a x = [(field x, 1)]) ∧
      serialRun (m.serial fmt.d) ((ps.map Sessions.Part.steps).flatMap fun n => sparseUpdate fmt.d (fun j => conv (m.spacing fmt.dx0 j)) f n) (fun _ => a) = .ok σ' ∧
      (∃ first last, Started fmt m ghosts node (fun _ _ => []) ranks first ∧ Chain fmt (ps.map (Sessions.Part.call update)) first last) ∧
      ∀ first last, Started fmt m ghosts node (fun _ _ => []) ranks first → Chain fmt (ps.map (Sessions.Part.call update)) first last → Denotes fmt m (cellAt (m.serial fmt.d) (σ' 0)) last := by
  intro node update
  have hb := sparse_buffers c pad pad0 hI hint
  have hfmt : fmt.Good (Lists I) := ⟨by rw [hcell]; exact hb.1, by rw [hcomp]; rintro z ⟨⟩, hname, hacc, by rw [hcell]; exact hb.2⟩
  have hempty : Lists I ([] : Sparse.Cell α) := ⟨by simp [Sparse.Ok, Sparse.keys], by simp [Sparse.keys]⟩
  have hB : ∀ v : Sparse.Cell α, Lists I v → fmt.cell.size v ≤ 4 + I.card * (4 + pad + c.width) := fun v h => by
    rw [hcell]
    show 4 + (ConvertFile.items pad0 v).length * (4 + pad + c.width) ≤ _
    have h1 : v.length = (Sparse.keys v).toFinset.card := by rw [List.toFinset_card_of_nodup h.1]; simp [Sparse.keys]
    have h2 := Finset.card_le_card (fun k hk => h.2 k (List.mem_toFinset.1 hk) : (Sparse.keys v).toFinset ⊆ I)
    have h3 : (ConvertFile.items pad0 v).length ≤ I.card := by rw [ConvertFile.items, List.length_map]; omega
    have := Nat.mul_le_mul_right (4 + pad + c.width) h3
    omega
  have hn : ∀ x (c : Sparse.Cell α), Lists I c → node x c = .ok (Sparse.update c (field x) fun _ => 1) ∧ Lists I (Sparse.update c (field x) fun _ => (1 : α)) :=
    fun x c h => ⟨rfl, lists_update h (hfield x) _⟩
  have hF : ∀ x, Sparse.update ([] : Sparse.Cell α) (field x) (fun _ => 1) = [(field x, 1)] := fun x => rfl
  obtain ⟨⟨first, h1⟩, h2⟩ := started hfmt hm hok hnp (bounded_fits hcomp hfmt.cell hfmt.valid hB (serial_wf hok) hsize).1 (fun np e r hr => by
      subst e
      replace hok : (m.world fmt.d ghosts np).Ok np := hok
      have := Nat.mul_le_mul_right (4 + I.card * (4 + pad + c.width)) (sites_rank hok hr)
      refine bounded_fits hcomp hfmt.cell hfmt.valid hB (shape_wf hok hr) ?_
      show _ + 16 * fmt.d + 16 < _
      omega) (fun x y c h => by rw [hv x y h]) hn (new := fun _ _ => []) (fun _ _ => hempty) fun x _ _ => hF x
  obtain ⟨a, h3, h4, h5⟩ := nodewise_spec (bd := .serial) (g := m.serial fmt.d) (serial_wf hok) (fun _ => rfl) (fun x y c h => by rw [hv x y h]) hn (fun _ => []) fun q _ _ => hempty
  have hσ : Holds m fmt.d (fun _ => Lists I) (fun x => [(field x, 1)]) fun _ => a := ⟨fun x hx => (h5 x hx).trans (hF x), fun _ => h4⟩
  obtain ⟨σ', e, ⟨last, hl⟩, -⟩ := sparse_restarts hcomp hcell hname hacc hm hI hint hfresh hsize conv hf hps (h2 first h1) hσ
  refine ⟨a, σ', h3, hσ.value, e, ⟨first, last, h1, hl⟩, fun first' last' h1' hl' => ?_⟩
  obtain ⟨σ'', e', -, h⟩ := sparse_restarts hcomp hcell hname hacc hm hI hint hfresh hsize conv hf hps (h2 first' h1') hσ
  obtain rfl := Outcome.ok.inj (e.symm.trans e')
  exact h last' hl'

/-- **C105, isotropic grain growth with sparse cells.** -/
theorem isoSparse_whole (h01 : 0 ∈ I ∧ 1 ∈ I) :
    let update := fun dx => sparseUpdate fmt.d (fun j => conv (dx j)) f
    ∃ a σ', nodewise .serial (m.serial fmt.d) (isoSparseNode fmt.d) (fun _ => []) = .ok a ∧
      (∀ x, (m.serial fmt.d).IsNode x → cellAt (m.serial fmt.d) a x = [(if insideSparse fmt.d x then 1 else 0, 1)]) ∧
      serialRun (m.serial fmt.d) ((ps.map Sessions.Part.steps).flatMap fun n => sparseUpdate fmt.d (fun j => conv (m.spacing fmt.dx0 j)) f n) (fun _ => a) = .ok σ' ∧
      (∃ first last, Started fmt m ghosts (isoSparseNode fmt.d) (fun _ _ => []) ranks first ∧ Chain fmt (ps.map (Sessions.Part.call update)) first last) ∧
      ∀ first last, Started fmt m ghosts (isoSparseNode fmt.d) (fun _ _ => []) ranks first → Chain fmt (ps.map (Sessions.Part.call update)) first last →
        Denotes fmt m (cellAt (m.serial fmt.d) (σ' 0)) last :=
  sparse_whole hcomp hcell hname hacc hm hI hint hfresh hsize hok hnp conv hf hps (field := fun x => if insideSparse fmt.d x then 1 else 0) (fun x y h => by rw [insideSparse_congr hm.dim h])
    fun x => by split_ifs; exacts [h01.2, h01.1]

/-- **C105, anisotropic grain growth with sparse cells.** -/
theorem anisoSparse_whole (h0123 : ∀ k : Nat, k < 4 → (k : Int) ∈ I) :
    let update := fun dx => sparseUpdate fmt.d (fun j => conv (dx j)) f
    ∃ a σ', nodewise .serial (m.serial fmt.d) (anisoSparseNode fmt.d) (fun _ => []) = .ok a ∧
      (∀ x, (m.serial fmt.d).IsNode x → cellAt (m.serial fmt.d) a x = [((quarter fmt.d x : Int), 1)]) ∧
      serialRun (m.serial fmt.d) ((ps.map Sessions.Part.steps).flatMap fun n => sparseUpdate fmt.d (fun j => conv (m.spacing fmt.dx0 j)) f n) (fun _ => a) = .ok σ' ∧
      (∃ first last, Started fmt m ghosts (anisoSparseNode fmt.d) (fun _ _ => []) ranks first ∧ Chain fmt (ps.map (Sessions.Part.call update)) first last) ∧
      ∀ first last, Started fmt m ghosts (anisoSparseNode fmt.d) (fun _ _ => []) ranks first → Chain fmt (ps.map (Sessions.Part.call update)) first last →
        Denotes fmt m (cellAt (m.serial fmt.d) (σ' 0)) last :=
  sparse_whole hcomp hcell hname hacc hm hI hint hfresh hsize hok hnp conv hf hps (field := fun x => (quarter fmt.d x : Int)) (fun x y h => by rw [quarter_congr hm.dim h])
    fun x => h0123 _ (by unfold quarter; dsimp only; split_ifs <;> decide)

end SparseCells
end

/-! ## Examples -/

/-- Isotropic grain growth on the line of 1024 nodes: generated on four ranks, three steps on two ranks, two steps serially, one step on four ranks. -/
example (value : List Byte → List Byte → Nat → Byte) (conv : { n : Int // -2 ^ 31 ≤ n ∧ n < 2 ^ 31 } → Byte) : let : One Byte := ⟨1⟩
    let ps : List (Sessions.Part (List Byte)) := [⟨some 2, 1, 3, fun _ _ _ => [1, 2]⟩, ⟨none, 1, 2, fun _ _ _ => [3, 3]⟩, ⟨some 4, 1, 1, fun _ _ _ => [1, 2]⟩]
    let update := fun dx => evolveUpdate (isoKernel 1 2 (fun j => conv (dx j)) value)
    ∃ a σ' first last, nodewise .serial ((ring 2).serial 1) (isoNode 1) (fun _ => [9, 9]) = .ok a ∧
      serialRun ((ring 2).serial 1) (repeatProg [.loop 1 (isoKernel 1 2 (fun j => conv ((ring 2).spacing ⟨1, by decide⟩ j)) value), .swap 0 1, .ghostswap 0] 6) (fun _ => a) = .ok σ' ∧
      Started vectors (ring 2) 1 (isoNode 1) (fun _ _ => [9, 9]) (some 4) first ∧ Chain vectors (ps.map (Sessions.Part.call update)) first last ∧
      Denotes vectors (ring 2) (cellAt ((ring 2).serial 1) (σ' 0)) last := by
  intro _ ps update
  obtain ⟨a, σ', h1, h2, ⟨first, last, h3, h4⟩, h5⟩ := iso_whole (fmt := vectors) rfl (c := byteCodec) rfl (by decide) (by decide) (m := ring 2) (ring_good rfl ⟨by decide, by decide⟩ rfl)
    (by show 1024 * (4 + 2 * 1) + 16 * 1 + 16 < 2 ^ 31 - 1; decide) (by rfl) (ghosts := 1) (ranks := some 4) (ring_ok 2 (np := 4) (by decide)) (by decide) (new := fun _ _ => [9, 9]) (fun _ _ => rfl) conv (ps := ps) (by
      intro q hq
      have : q = ⟨some 2, 1, 3, fun _ _ _ => [1, 2]⟩ ∨ q = ⟨none, 1, 2, fun _ _ _ => [3, 3]⟩ ∨ q = ⟨some 4, 1, 1, fun _ _ _ => [1, 2]⟩ := by simpa [ps] using hq
      rcases this with rfl | rfl | rfl
      · exact ⟨ring_ok 2 (np := 2) (by decide), show 2 < 2 ^ 31 by decide, show (1 : Int) ≤ 1 by decide, fun _ _ _ => rfl⟩
      · exact ⟨ring_ok 2 (np := 1) (by decide), show 1 < 2 ^ 31 by decide, show (1 : Int) ≤ 1 by decide, fun _ _ _ => rfl⟩
      · exact ⟨ring_ok 2 (np := 4) (by decide), show 4 < 2 ^ 31 by decide, show (1 : Int) ≤ 1 by decide, fun _ _ _ => rfl⟩) rfl value
  exact ⟨a, σ', first, last, h1, h2, h3, h4, h5 first last h3 h4⟩

/-- Anisotropic grain growth, generated serially, one step on two ranks. -/
example (pos : Byte → Bool) (value : List Int → List Byte → List Byte → Nat → Byte) (conv : { n : Int // -2 ^ 31 ≤ n ∧ n < 2 ^ 31 } → Byte) : let : One Byte := ⟨1⟩
    let update := fun dx => evolveUpdate (anisoKernel pos 1 4 (fun j => conv (dx j)) value)
    ∃ first last, Started vectors (ring 4) 1 (anisoNode 1) (fun _ _ => [9, 9, 9, 9]) none first ∧ Chain vectors [Sessions.Part.call update ⟨some 2, 1, 1, fun _ _ _ => [0, 0, 0, 0]⟩] first last := by
  intro _ update
  obtain ⟨a, σ', h1, h2, h, -⟩ := aniso_whole (fmt := vectors) rfl (c := byteCodec) rfl (by decide) (by decide) (m := ring 4) (ring_good rfl ⟨by decide, by decide⟩ rfl)
    (by show 1024 * (4 + 4 * 1) + 16 * 1 + 16 < 2 ^ 31 - 1; decide) (by rfl) (ghosts := 1) (ranks := none) (ring_ok 4 (np := 1) (by decide)) (by decide) (new := fun _ _ => [9, 9, 9, 9]) (fun _ _ => rfl) conv
    (ps := [⟨some 2, 1, 1, fun _ _ _ => [0, 0, 0, 0]⟩]) (by
      intro q hq
      obtain rfl := List.mem_singleton.1 hq
      exact ⟨ring_ok 4 (np := 2) (by decide), show 2 < 2 ^ 31 by decide, show (1 : Int) ≤ 1 by decide, fun _ _ _ => rfl⟩) rfl pos value
  exact h

/-- Sparse cells: generated on two ranks, two steps on four. -/
example (conv : { n : Int // -2 ^ 31 ≤ n ∧ n < 2 ^ 31 } → Byte) : let : One Byte := ⟨1⟩
    let f : Sparse.Cell Int → Sparse.Cell Byte → Sparse.Cell Byte → Sparse.Cell Byte → Sparse.Cell Byte := fun _ _ y _ => y
    let update := fun dx => sparseUpdate 1 (fun j => conv (dx j)) f
    (∃ first last, Started sparses (ring 0) 1 (isoSparseNode 1) (fun _ _ => []) (some 2) first ∧ Chain sparses [Sessions.Part.call update ⟨some 4, 1, 2, fun _ _ _ => []⟩] first last) ∧
      ∃ first last, Started sparses (ring 0) 1 (anisoSparseNode 1) (fun _ _ => []) (some 2) first ∧ Chain sparses [Sessions.Part.call update ⟨some 4, 1, 2, fun _ _ _ => []⟩] first last := by
  intro _ f update
  have hps : Runs (ring 0) 1 (Lists {0, 1, 2, 3}) [(⟨some 4, 1, 2, fun _ _ _ => []⟩ : Sessions.Part (Sparse.Cell Byte))] := by
    intro q hq
    obtain rfl := List.mem_singleton.1 hq
    exact ⟨ring_ok 0 (np := 4) (by decide), show 4 < 2 ^ 31 by decide, show (1 : Int) ≤ 1 by decide, fun _ _ _ => ⟨by simp [Sparse.Ok, Sparse.keys], by simp [Sparse.keys]⟩⟩
  have hf : LocalFields f := fun _ _ y _ _ h _ => ⟨h, fun k hk => Or.inr (Or.inl hk)⟩
  have hsz : sites ((ring 0).serial sparses.d) * (4 + ({0, 1, 2, 3} : Finset Int).card * (4 + 3 + byteCodec.width)) + 16 * sparses.d + 16 < 2 ^ 31 - 1 := by
    show 1024 * (4 + 4 * (4 + 3 + 1)) + 16 * 1 + 16 < 2 ^ 31 - 1
    decide
  obtain ⟨_, _, _, _, _, h, -⟩ := isoSparse_whole (fmt := sparses) rfl (c := byteCodec) (pad0 := ⟨[0, 0, 0], rfl⟩) rfl (by decide) (by decide) (m := ring 0) (ring_good rfl ⟨by decide, by decide⟩ rfl)
    (I := {0, 1, 2, 3}) (by decide) (by decide) rfl hsz (ghosts := 1) (ranks := some 2) (ring_ok 0 (np := 2) (by decide)) (by decide) conv hf hps ⟨by decide, by decide⟩
  obtain ⟨_, _, _, _, _, h', -⟩ := anisoSparse_whole (fmt := sparses) rfl (c := byteCodec) (pad0 := ⟨[0, 0, 0], rfl⟩) rfl (by decide) (by decide) (m := ring 0) (ring_good rfl ⟨by decide, by decide⟩ rfl)
    (I := {0, 1, 2, 3}) (by decide) (by decide) rfl hsz (ghosts := 1) (ranks := some 2) (ring_ok 0 (np := 2) (by decide)) (by decide) conv hf hps (by decide)
  exact ⟨h, h'⟩
end MMSP.GenerateRanks
