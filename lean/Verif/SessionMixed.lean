import Verif.SessionCells
/-!
# Sessions of the examples with grids of two cell types

Ostwald ripening keeps its potential in a scalar grid `wspace` beside the vector grids, solidification the phase fraction of the step before in the scalar grid `refGrid`. The file
holds the vector grid only.
-/

namespace MMSP.Sessions

open FileIO ParallelRun Ghost Decomp

variable {T D : Type}

/-- One session of a program with the statements `update dx steps` in `update`, some of whose grids have cells of another type. -/
def Part.callWith (other : Nat → Option (Cell T)) (update : (Nat → D) → Nat → List (Stmt T)) (q : Part T) : Session T D where
  ranks := q.ranks
  ghosts := q.ghosts
  prog := fun dx => update dx q.steps
  junk := q.junk
  other := other

/-- Which of the grids hold scalars: the one with the number `scalars`. -/
def onlyScalar [Zero T] (c : Codec T) (scalars k : Nat) : Option (Cell (List T)) := if k = scalars then some (scalarCell c) else none

/-- What a sequence of sessions needs: on each number of ranks blocks that are thick enough, at least one layer of ghosts, and grids allocated with cells of their type. -/
def RunsMixed (m : Meta D) (d : Nat) (P : Nat → T → Prop) (ps : List (Part T)) : Prop :=
  ∀ q ∈ ps, (m.world d q.ghosts (q.ranks.getD 1)).Ok (q.ranks.getD 1) ∧ q.ranks.getD 1 < 2 ^ 31 ∧ 1 ≤ q.ghosts ∧ ∀ r k o, P k (q.junk r k o)

section Mixed
variable {α : Type} [Zero α] {fmt : Format (List α) D} (hcomp : fmt.comp = none) {c : Codec α} (hcell : fmt.cell = arrayCell c) (hname : newline ∉ fmt.name)
  (hacc : checkType fmt.name fmt.name = .ok ()) {m : Meta D} (hm : m.Good fmt) (hfresh : (fmt.fresh m.fields).length = m.fields.toNat)
  (hsize : sites (m.serial fmt.d) * (4 + m.fields.toNat * c.width) + 16 * fmt.d + 16 < 2 ^ 31 - 1)
include hcomp hcell hname hacc hm hfresh hsize

/-- Sessions whose grid `s` holds scalars and whose other grids hold vectors as long as those of the file. -/
theorem mixed_restarts {s : Nat} (hs : s ≠ 0) (update : (Nat → D) → Nat → List (Stmt (List α)))
    (hd : ∀ gh, 1 ≤ gh → ∀ n, ∃ K, K.f 0 ∧ Disciplined fmt.d gh (Sizes α m.fields.toNat s) oldKnown (update (m.spacing fmt.dx0) n) K) {ps : List (Part (List α))}
    (hps : RunsMixed m fmt.d (Sizes α m.fields.toNat s) ps) {F : (Nat → Int) → List α} {file : List Byte} (hfile : Denotes fmt m F file) {σ : Grids (List α)}
    (hσ : Holds m fmt.d (Sizes α m.fields.toNat s) F σ) :
    ∃ σ', serialRun (m.serial fmt.d) ((ps.map Part.steps).flatMap (update (m.spacing fmt.dx0))) σ = .ok σ' ∧
      (∃ last, Chain fmt (ps.map (Part.callWith (onlyScalar c s) update)) file last) ∧
      ∀ last, Chain fmt (ps.map (Part.callWith (onlyScalar c s) update)) file last → Denotes fmt m (cellAt (m.serial fmt.d) (σ' 0)) last := by
  have hn : m.fields.toNat < 2 ^ 31 := by have := hm.fields; unfold IsInt at this; omega
  have hb := mixed_buffers c (n := m.fields.toNat) (s := s) hn
  have hlen : ∀ v : List α, Sizes α m.fields.toNat s 0 v → v.length = m.fields.toNat := fun v h => by rw [show v.length = _ from h, if_neg (Ne.symm hs)]
  have hP : ∀ v, Sizes α m.fields.toNat s 0 v → fmt.cell.Valid v := fun v h => by rw [hcell]; show v.length < 2 ^ 31; rw [hlen v h]; exact hn
  have hc : RoundTrips fmt.cell := by rw [hcell]; exact vectorCell_roundTrips c
  have hof : ∀ (q : Part (List α)) k, (q.callWith (onlyScalar c s) update).cellOf fmt k = mixedCell c s k := by
    intro q k
    show (onlyScalar c s k).getD fmt.cell = _
    unfold onlyScalar mixedCell
    split_ifs
    · rfl
    · exact hcell
  obtain ⟨σ', h1, h2, h3⟩ := chain_eq_serial (P := Sizes α m.fields.toNat s) ⟨hc, by rw [hcomp]; rintro z ⟨⟩, hname, hacc, hP⟩ hm
    (by show (fmt.fresh m.fields).length = _; rw [hfresh, if_neg (Ne.symm hs)]) (ss := ps.map (Part.callWith (onlyScalar c s) update)) (by
    intro t ht
    obtain ⟨q, hq, rfl⟩ := List.mem_map.mp ht
    obtain ⟨a, b, e, j⟩ := hps q hq
    refine bounded_sound hcomp hc hP (B := 4 + m.fields.toNat * c.width) (fun v h => ?_) a b (hd q.ghosts e q.steps) j (fun k => by rw [hof]; exact hb.1 k) (fun k v h => by rw [hof]; exact hb.2 k v h) hsize
    rw [hcell]; show 4 + v.length * c.width ≤ _; rw [hlen v h]) hfile hσ
  refine ⟨σ', ?_, h2, h3⟩
  rw [← h1, List.flatMap_map, List.flatMap_map]
  rfl

/-- **C99, Ostwald ripening.** Sessions on any numbers of ranks give node for node the field of one serial run with as many steps in all; `wspace` is not in the file and need not be. -/
theorem ostwald_restarts [One α] [Add α] [Sub α] [Mul α] [Div α] (conv : D → α) (hfields : 0 < m.fields.toNat) (pow2 : α → α) (pot : List α → α → α) (value : List α → List α → α → Nat → α)
    {ps : List (Part (List α))} (hps : RunsMixed m fmt.d (Sizes α m.fields.toNat 2) ps) {F : (Nat → Int) → List α} {file : List Byte} (hfile : Denotes fmt m F file) {σ : Grids (List α)}
    (hσ : Holds m fmt.d (Sizes α m.fields.toNat 2) F σ) :
    let update := fun dx => ostwaldUpdate fmt.d m.fields.toNat pow2 (fun j => conv (dx j)) pot value
    let sessions := ps.map (Part.callWith (onlyScalar c 2) update)
    ∃ σ', serialRun (m.serial fmt.d) (update (m.spacing fmt.dx0) (ps.map Part.steps).sum) σ = .ok σ' ∧ (∃ last, Chain fmt sessions file last) ∧
      ∀ last, Chain fmt sessions file last → Denotes fmt m (cellAt (m.serial fmt.d) (σ' 0)) last := by
  intro update sessions
  obtain ⟨σ', h1, h2, h3⟩ := mixed_restarts hcomp hcell hname hacc hm hfresh hsize (by decide : (2 : Nat) ≠ 0) update (fun gh hgh n => ⟨oldKnown, rfl,
    .ghostswap rfl (((ostwald_disciplined hgh hfields pow2 (fun j => conv (m.spacing fmt.dx0 j)) pot value).steps n).mono ⟨fun _ => id, fun _ hk => Or.inr hk⟩)⟩) hps hfile hσ
  refine ⟨σ', ?_, h2, h3⟩
  rw [← h1]
  have e := serialRun_calls (m.serial fmt.d) _ ps (m.spacing fmt.dx0) update (fun n => rfl) σ
  rw [List.flatMap_map] at e ⊢
  exact e.symm

/-- **C99, solidification.** The last file holds what the serial program computes when it calls `update` once per session; the first thing each call does is to overwrite `refGrid`. -/
theorem solid_restarts (hfields : m.fields = 2) (flux : α → α → α → α × α) (value : Around α → α × α)
    {ps : List (Part (List α))} (hps : RunsMixed m fmt.d (Sizes α m.fields.toNat 3) ps) {F : (Nat → Int) → List α} {file : List Byte} (hfile : Denotes fmt m F file) {σ : Grids (List α)}
    (hσ : Holds m fmt.d (Sizes α m.fields.toNat 3) F σ) :
    let sessions := ps.map (Part.callWith (onlyScalar c 3) fun _ => solidUpdate flux value)
    ∃ σ', serialRun (m.serial fmt.d) ((ps.map Part.steps).flatMap (solidUpdate flux value)) σ = .ok σ' ∧ (∃ last, Chain fmt sessions file last) ∧
      ∀ last, Chain fmt sessions file last → Denotes fmt m (cellAt (m.serial fmt.d) (σ' 0)) last := by
  refine mixed_restarts hcomp hcell hname hacc hm hfresh hsize (by decide : (3 : Nat) ≠ 0) (fun _ => solidUpdate flux value) (fun gh hgh n => ⟨refKnown, Or.inl rfl, ?_⟩) hps hfile hσ
  rw [show m.fields.toNat = 2 by rw [hfields]; rfl]
  refine .ghostswap rfl (.loop [(0, 0)] keepKernel_reads keepKernel_keeps (by simp) ?_ (.ghostswap (Or.inl rfl) (((solid_disciplined hgh flux value).steps n).mono ⟨?_, ?_⟩)))
  · intro q hq; simp at hq; subst hq; exact Or.inl ⟨rfl, rfl⟩
  · exact fun k hk => hk.imp id id
  · exact fun k hk => Or.inr hk

end Mixed

/-! ## Examples -/

/-- A file of vectors of three bytes on a line of twelve nodes; two steps of Ostwald ripening on three ranks with two layers of ghosts, four steps serially, one step on two ranks. -/
example (conv : { n : Int // -2 ^ 31 ≤ n ∧ n < 2 ^ 31 } → Byte) (pow2 : Byte → Byte) (pot : List Byte → Byte → Byte) (value : List Byte → List Byte → Byte → Nat → Byte) :
    let junk : Int → Grids (List Byte) := fun _ k _ => if k = 2 then [9] else [1, 2, 3]
    let ps : List (Part (List Byte)) := [⟨some 3, 2, 2, junk⟩, ⟨none, 1, 4, junk⟩, ⟨some 2, 1, 1, junk⟩]
    let σ : Grids (List Byte) := fun k o => if k = 2 then [0] else [o.toNat.toUInt8, 7, 5]
    let update := fun dx => ostwaldUpdate 1 3 pow2 (fun j => conv (dx j)) pot value
    ∃ file last σ', outputBytes none (arrayCell byteCodec) wholeDecimal (gridName (ascii "vector:char")) 1 3 lineV.g0 lineV.g1
        (lineV.spacing ⟨1, by decide⟩) [⟨lineV.serial 1, σ 0⟩] = .ok file ∧
      serialRun (lineV.serial 1) (ostwaldUpdate 1 3 pow2 (fun j => conv (lineV.spacing ⟨1, by decide⟩ j)) pot value 7) σ = .ok σ' ∧
      Chain vectors (ps.map (Part.callWith (onlyScalar byteCodec 2) update)) file last ∧ Denotes vectors lineV (cellAt (lineV.serial 1) (σ' 0)) last := by
  intro junk ps σ update
  have hg := lineV_good
  have hwf : (lineV.serial 1).Wf := serial_wf (line_ok (Or.inl ⟨rfl, rfl⟩))
  have hsites : sites (lineV.serial 1) = 12 := by decide
  have hjunk : ∀ (r : Int) (k : Nat) (o : Int), Sizes Byte 3 2 k (junk r k o) := by
    intro r k o
    show (junk r k o).length = _
    simp only [junk]
    split_ifs <;> rfl
  obtain ⟨file, e1, e2⟩ := output_denotes vectors (vectorCell_roundTrips byteCodec) (by rintro z ⟨⟩) hg.dim hg.dimInt (by decide) hg.fields hg.box hg.ints (lineV.spacing vectors.dx0)
    (serial_run (c := arrayCell byteCodec) hg.box lineV.B0 lineV.B1 (data := σ 0) (fun _ _ _ => by show 3 < 2 ^ 31; decide) (by
      intro n hn
      have := bounded_size (arrayCell byteCodec) (P := fun v => v.length = 3) (B := 7) (fun v h => by show 4 + v.length * 1 ≤ 7; omega) hwf (fun _ _ _ => rfl) hn
      rw [hsites] at this
      omega))
    (by rintro w _ z raw ⟨⟩)
  rw [Meta.of_self hg] at e2
  obtain ⟨σ', h1, ⟨last, h2⟩, h3⟩ := ostwald_restarts (fmt := vectors) rfl (c := byteCodec) rfl (by decide) (by decide) hg (by decide)
    (by change sites (lineV.serial 1) * 7 + 16 * 1 + 16 < 2 ^ 31 - 1; rw [hsites]; decide) conv (by decide) pow2 pot value (ps := ps) (by
      intro q hq
      have : q = ⟨some 3, 2, 2, junk⟩ ∨ q = ⟨none, 1, 4, junk⟩ ∨ q = ⟨some 2, 1, 1, junk⟩ := by simpa [ps] using hq
      rcases this with rfl | rfl | rfl
      · exact ⟨line_ok (Or.inr (Or.inl ⟨rfl, rfl⟩)), show 3 < 2 ^ 31 by decide, show (1 : Int) ≤ 2 by decide, hjunk⟩
      · exact ⟨line_ok (Or.inl ⟨rfl, rfl⟩), show 1 < 2 ^ 31 by decide, show (1 : Int) ≤ 1 by decide, hjunk⟩
      · exact ⟨line_ok (Or.inr (Or.inr ⟨rfl, rfl⟩)), show 2 < 2 ^ 31 by decide, show (1 : Int) ≤ 1 by decide, hjunk⟩) e2 (σ := σ)
    ⟨fun _ _ => rfl, fun k o _ _ => by show (σ k o).length = _; simp only [σ]; split_ifs <;> rfl⟩
  exact ⟨file, last, σ', e1, h1, h2, h3 last h2⟩

/-- A mesh of six by three nodes with two fields, periodic along the first axis, with Neumann faces along the second. -/
def meshV : Meta { n : Int // -2 ^ 31 ≤ n ∧ n < 2 ^ 31 } := ⟨2, [(-1, 5), (0, 3)], [⟨1, by decide⟩, ⟨2, by decide⟩], [(.periodic, .periodic), (.neumann, .neumann)]⟩

def vectors2 : Format (List Byte) { n : Int // -2 ^ 31 ≤ n ∧ n < 2 ^ 31 } := { vectors with d := 2 }

theorem meshV_good : meshV.Good vectors2 := by
  refine ⟨by decide, ⟨by decide, by decide⟩, rfl, rfl, rfl, ⟨by decide, by decide⟩, ?_, ?_, fun _ _ => rfl⟩
  · intro j hj
    have : j = 0 ∨ j = 1 := by change j < 2 at hj; omega
    rcases this with rfl | rfl <;> decide
  · intro j hj
    have : j = 0 ∨ j = 1 := by change j < 2 at hj; omega
    rcases this with rfl | rfl <;> exact ⟨⟨by decide, by decide⟩, ⟨by decide, by decide⟩⟩

theorem meshV_ok {np : Nat} (h : np = 1 ∨ np = 2) : (meshV.world 2 1 np).Ok np := by
  have two : ∀ {j : Nat}, j < 2 → j = 0 ∨ j = 1 := by intro j hj; omega
  have hb : ∀ j, j < 2 → meshV.g0 j ≤ meshV.g1 j := by
    intro j hj
    rcases two hj with rfl | rfl <;> decide
  have hr : ∀ (P : Int → Nat → Prop), (∀ r ∈ [(0 : Int), 1], r < np → P r 0 ∧ P r 1) → ∀ r : Int, 0 ≤ r → r < np → ∀ j, j < 2 → P r j := by
    intro P hP r h0 h1 j hj
    have h2 := hP r (by have : r = 0 ∨ r = 1 := by omega
                        simpa using this) h1
    rcases two hj with rfl | rfl
    · exact h2.1
    · exact h2.2
  refine ⟨⟨choose_procGrid (by omega) (show 0 < 2 by decide) hb, show 0 < 2 by decide, hb, show (0 : Int) ≤ 1 by decide, ?_, ?_⟩, ?_, ?_⟩
  · intro j hj
    rcases two hj with rfl | rfl <;> rcases h with rfl | rfl <;> decide +kernel
  · refine hr (fun r j => 1 ≤ ((meshV.world 2 1 np).toSetup.shape r).x1 j - ((meshV.world 2 1 np).toSetup.shape r).x0 j) ?_
    rcases h with rfl | rfl <;> decide +kernel
  · intro j hj
    change meshV.B0 j ≠ .parallel ∧ meshV.B1 j ≠ .parallel
    rcases two hj with rfl | rfl <;> decide
  · intro j hj _ r hr'
    refine hr (fun r j => 1 < ((meshV.world 2 1 np).shape r).x1 j - ((meshV.world 2 1 np).shape r).x0 j) ?_ r hr'.1 hr'.2 j hj
    rcases h with rfl | rfl <;> decide +kernel

/-- A file of the mesh; three steps of solidification on two ranks, then two steps serially. -/
example (flux : Byte → Byte → Byte → Byte × Byte) (value : Around Byte → Byte × Byte) :
    let junk : Int → Grids (List Byte) := fun _ k _ => if k = 3 then [9] else [1, 2]
    let ps : List (Part (List Byte)) := [⟨some 2, 1, 3, junk⟩, ⟨none, 1, 2, junk⟩]
    let σ : Grids (List Byte) := fun k o => if k = 3 then [0] else [o.toNat.toUInt8, 7]
    ∃ file last σ', outputBytes none (arrayCell byteCodec) wholeDecimal (gridName (ascii "vector:char")) 2 2 meshV.g0 meshV.g1
        (meshV.spacing ⟨1, by decide⟩) [⟨meshV.serial 2, σ 0⟩] = .ok file ∧
      serialRun (meshV.serial 2) (solidUpdate flux value 3 ++ solidUpdate flux value 2) σ = .ok σ' ∧
      Chain vectors2 (ps.map (Part.callWith (onlyScalar byteCodec 3) fun _ => solidUpdate flux value)) file last ∧
      Denotes vectors2 meshV (cellAt (meshV.serial 2) (σ' 0)) last := by
  intro junk ps σ
  have hg := meshV_good
  have hwf : (meshV.serial 2).Wf := serial_wf (meshV_ok (Or.inl rfl))
  have hsites : sites (meshV.serial 2) = 18 := by decide
  have hjunk : ∀ (r : Int) (k : Nat) (o : Int), Sizes Byte 2 3 k (junk r k o) := by
    intro r k o
    show (junk r k o).length = _
    simp only [junk]
    split_ifs <;> rfl
  obtain ⟨file, e1, e2⟩ := output_denotes vectors2 (vectorCell_roundTrips byteCodec) (by rintro z ⟨⟩) hg.dim hg.dimInt (by decide) hg.fields hg.box hg.ints (meshV.spacing vectors2.dx0)
    (serial_run (c := arrayCell byteCodec) hg.box meshV.B0 meshV.B1 (data := σ 0) (fun _ _ _ => by show 2 < 2 ^ 31; decide) (by
      intro n hn
      have := bounded_size (arrayCell byteCodec) (P := fun v => v.length = 2) (B := 6) (fun v h => by show 4 + v.length * 1 ≤ 6; omega) hwf (fun _ _ _ => rfl) hn
      rw [hsites] at this
      omega))
    (by rintro w _ z raw ⟨⟩)
  rw [Meta.of_self hg] at e2
  obtain ⟨σ', h1, ⟨last, h2⟩, h3⟩ := solid_restarts (fmt := vectors2) rfl (c := byteCodec) rfl (by decide) (by decide) hg (by decide)
    (by change sites (meshV.serial 2) * 6 + 16 * 2 + 16 < 2 ^ 31 - 1; rw [hsites]; decide) rfl flux value (ps := ps) (by
      intro q hq
      have : q = ⟨some 2, 1, 3, junk⟩ ∨ q = ⟨none, 1, 2, junk⟩ := by simpa [ps] using hq
      rcases this with rfl | rfl
      · exact ⟨meshV_ok (Or.inr rfl), show 2 < 2 ^ 31 by decide, show (1 : Int) ≤ 1 by decide, hjunk⟩
      · exact ⟨meshV_ok (Or.inl rfl), show 1 < 2 ^ 31 by decide, show (1 : Int) ≤ 1 by decide, hjunk⟩) e2 (σ := σ)
    ⟨fun _ _ => rfl, fun k o _ _ => by show (σ k o).length = _; simp only [σ]; split_ifs <;> rfl⟩
  have h1' := (by simpa [ps] using h1 : serialRun (meshV.serial vectors2.d) (solidUpdate flux value 3 ++ solidUpdate flux value 2) σ = .ok σ')
  exact ⟨file, last, σ', e1, h1', h2, h3 last h2⟩

end MMSP.Sessions
