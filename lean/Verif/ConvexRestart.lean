import Verif.GenerateConvex
/-!
# Property C116: convex splitting from `generate` to the last restart

Sessions of `examples/phase_transitions/cahn-hilliard/convex_splitting`: read a file, call `update`, write a file (`include/MMSP.main.hpp` 300-324), each on its own number of ranks. Unlike the
programs of C72 and C97, `update` decides by the sum of the residuals over all ranks when to stop, and may stop the program.
-/

namespace MMSP.ConvexRestart

open FileIO ParallelRun Sessions Conserve GenerateRanks Board GenerateConvex
open ConvexSplit hiding ring
open Ghost (IsRank)

/-! ## Model -/

/-- How one session is run: serially or on so many ranks, with so many layers of ghosts and so many steps; `junk` is what the other grids of each rank contain at the start. -/
structure Sitting (V : Type) where
  ranks : Option Nat
  ghosts : Int
  steps : Nat
  junk : Int → Grids V

section
variable {α D : Type} [Field α] [LinearOrder α] (fmt : Format (α × α) D) (p : Params α) (delta : D) (conv : D → α) (sqrt : α → α) (maxIter : Nat)

/-- `dx(oldGrid,d) = deltaX`, `cahn-hilliard.cpp` 290-294: the spacings of the file are replaced. -/
def spaced (dx : Nat → D) (j : Nat) : D := if j < fmt.d then delta else dx j

/-- The MPI program on `np` ranks: `input` (`include/MMSP.grid.cpp` 1183-1246, with its `ghostswap` at 1243), `update` (`cahn-hilliard.cpp` 276-461, `Board.convexUpdate`), `output`
(1426-1543). The single-byte writes that make up the file. -/
def parallelSitting (q : Sitting (α × α)) (np : Nat) (file : List Byte) : Outcome (List (Nat × Byte)) :=
  (openGrid fmt .mpi q.ghosts np file 0).bind fun first =>
  (openGrid fmt .mpi q.ghosts np file (np - 1)).bind fun last =>
  let w := worldOf fmt q.ghosts np first last
  (together np (fun r => (openGrid fmt .mpi q.ghosts np file r).bind fun o => .ok (Function.update (q.junk r) 0 o.local_.data)) q.junk).bind fun S =>
  (together np (mpiRun (fun _ => fmt.cell) w [.ghostswap 0] fun r => .ok (S r)) S).bind fun S =>
  (convexUpdate (fun _ => fmt.cell) w np p (fun _ => conv delta) sqrt maxIter q.steps S).bind fun S =>
  (gather (fun n => writeBuffer fmt.comp fmt.cell (w.shape n) (S n 0)) np).bind fun blocks =>
  standardWrites (header fmt.dec fmt.name fmt.d first.fields first.g0 first.g1 (spaced fmt delta first.dx)) blocks

/-- The serial program (`ConvexSplit.update`, output 1360-1401). `newGrid.copy(oldGrid)`: both grids start equal. -/
def serialSitting (q : Sitting (α × α)) (file : List Byte) : Outcome (List Byte) :=
  (openGrid fmt .serial q.ghosts 1 file 0).bind fun o =>
  let w := worldOf fmt q.ghosts 1 o o
  (update p w.serial (fun _ => conv delta) sqrt maxIter q.steps (o.local_.data, o.local_.data)).bind fun s =>
  outputBytes fmt.comp fmt.cell fmt.dec fmt.name fmt.d o.fields o.g0 o.g1 (spaced fmt delta o.dx) [⟨w.serial, s.1⟩]

/-- The session may leave `file'`; with MPI the writes take effect in some order. -/
def Leaves (q : Sitting (α × α)) (file file' : List Byte) : Prop :=
  match q.ranks with
  | none => serialSitting fmt p delta conv sqrt maxIter q file = .ok file'
  | some np => ∃ writes W, parallelSitting fmt p delta conv sqrt maxIter q np file = .ok writes ∧ W.Perm writes ∧ ∀ i, written W i = file'[i]?

/-- The session is stopped by `MMSP::Abort(-1)`, `cahn-hilliard.cpp` 429-434. -/
def Stops (q : Sitting (α × α)) (file : List Byte) : Prop :=
  match q.ranks with
  | none => serialSitting fmt p delta conv sqrt maxIter q file = .abort (-1)
  | some np => parallelSitting fmt p delta conv sqrt maxIter q np file = .abort (-1)

/-- Sessions one after the other, each continuing from the file of the one before. -/
inductive Sittings : List (Sitting (α × α)) → List Byte → List Byte → Prop
  | nil (file : List Byte) : Sittings [] file file
  | cons {q : Sitting (α × α)} {qs : List (Sitting (α × α))} {f f' f'' : List Byte} (head : Leaves fmt p delta conv sqrt maxIter q f f') (tail : Sittings qs f' f'') : Sittings (q :: qs) f f''

end

/-! ## Specification -/

section
variable {α : Type} [Field α] [LinearOrder α]

/-- One serial program that calls `update` with these numbers of steps one after the other. -/
def calls (p : Params α) (g : Shape) (dx : Nat → α) (sqrt : α → α) (maxIter : Nat) : List Nat → (Int → α × α) → Outcome (Int → α × α)
  | [], a => .ok a
  | n :: ns, a => (update p g dx sqrt maxIter n (a, a)).bind fun s => calls p g dx sqrt maxIter ns s.1

/-- All fields that are written are as `P` says. -/
def Printable (P : α × α → Prop) (p : Params α) (g : Shape) (dx : Nat → α) (sqrt : α → α) (maxIter : Nat) (ns : List Nat) (a : Int → α × α) : Prop :=
  ∀ k, 0 < k → k ≤ ns.length → ∀ b, calls p g dx sqrt maxIter (ns.take k) a = .ok b → ∀ x, g.IsNode x → P (cellAt g b x)

/-- The header with the spacing of the program. -/
def respace {D : Type} (fmt : Format (α × α) D) (delta : D) (m : Meta D) : Meta D := { m with dx := List.replicate fmt.d delta }

/-- `sqrt` does not give too little: what the bounds need of it. -/
def UpperRoot (f : α → α) : Prop := f 0 = 0 ∧ ∀ x, 0 ≤ x → 0 ≤ f x ∧ x ≤ f x ^ 2

/-- What a session needs: blocks thick enough, at least one layer of ghosts, and blocks that can be written if all cells are as `P` says. -/
structure Ready {D : Type} (fmt : Format (α × α) D) (m : Meta D) (P : α × α → Prop) (q : Sitting (α × α)) : Prop where
  ok : (m.world fmt.d q.ghosts (q.ranks.getD 1)).Ok (q.ranks.getD 1)
  count : q.ranks.getD 1 < 2 ^ 31
  ghosts : 1 ≤ q.ghosts
  serialFits : q.ranks = none → Fits fmt P (m.serial fmt.d)
  fits : ∀ np, q.ranks = some np → ∀ r, IsRank np r → Writes fmt P ((m.world fmt.d q.ghosts np).shape r)

end

/-! ## Files whose nodes can be written -/

section
variable {T D : Type} {fmt : Format T D} {m : Meta D} {P : T → Prop}

/-- Only the nodes of a grid are written. -/
theorem writeBuffer_nodes {g : Shape} (hg : g.Wf) {data data' : Int → T} (h : ∀ x, g.IsNode x → cellAt g data x = cellAt g data' x) :
    writeBuffer fmt.comp fmt.cell g data = writeBuffer fmt.comp fmt.cell g data' := by
  have hin := allIn_of_fits hg (st := 1) (by decide) (nodes_fit hg)
  have hv : ∀ o ∈ visited g 1 g.x0 g.x1 g.dim 0, data o = data' o := by
    rw [visited_full]
    intro o ho
    obtain ⟨x, hx, rfl⟩ := List.mem_map.mp ho
    exact h x fun j hj => ⟨(points_region (by decide) hx j hj).1, (points_region (by decide) hx j hj).2.1⟩
  unfold writeBuffer bufferSize toBuffer
  rw [regionTo_eq data le_rfl hin, regionTo_eq data' le_rfl hin, regionSize_eq data le_rfl hin, regionSize_eq data' le_rfl hin,
    List.map_congr_left (g := fun o => fmt.cell.size (data' o)) fun o ho => by rw [hv o ho], List.flatMap_congr (g := fun o => fmt.cell.enc (data' o)) fun o ho => by rw [hv o ho]]

private theorem gather_congr {X : Type} {f f' : Nat → Outcome X} : ∀ {n : Nat}, (∀ i, i < n → f i = f' i) → gather f n = gather f' n
  | 0, _ => rfl
  | n + 1, h => by unfold gather; rw [gather_congr fun i hi => h i (by omega), h n (by omega)]

private theorem serial_cell {g : Shape} (hg : g.Wf) (hgh : g.ghosts = 0) {o : Int} (h0 : 0 ≤ o) (h1 : o < g.cells) : ∃ x, g.IsNode x ∧ g.rawOffset x = o := by
  have e : g.cells = g.nodes := by
    unfold Shape.cells Shape.nodes
    rw [show g.sx = g.xx by unfold Shape.sx Shape.xx; exact slice_congr fun j _ => by simp [Shape.s0, Shape.s1, hgh]]
    simp [Shape.s0, Shape.s1, hgh]
  exact ⟨g.position o, Shape.position_isNode hg h0 (e ▸ h1), (atNode_raw (bd := .serial) hg (fun _ => hgh) h0 (e ▸ h1)).symm⟩

/-- `generate_denotes` for arrays that are as `P` says at the nodes. -/
theorem nodes_denote (hfmt : fmt.Good P) (hm : m.Good fmt) {ghosts : Int} {np : Nat} (hok : (m.world fmt.d ghosts np).Ok np) (hnp : np < 2 ^ 31)
    (hw : ∀ r, IsRank np r → Writes fmt P ((m.world fmt.d ghosts np).shape r)) {data : Int → Int → T} {F : (Nat → Int) → T}
    (hF : ∀ r, IsRank np r → ∀ x, ((m.world fmt.d ghosts np).shape r).IsNode x → cellAt ((m.world fmt.d ghosts np).shape r) (data r) x = F x)
    (hP : ∀ x, (m.serial fmt.d).IsNode x → P (F x)) :
    ∃ writes, generateFile fmt m ghosts np (fun r => .ok (data r)) = .ok writes ∧ ∃ out, (∀ W, W.Perm writes → ∀ i, written W i = out[i]?) ∧ Denotes fmt m F out := by
  classical
  have hsf := ParallelRun.serial_wf hok
  have hnode : (m.serial fmt.d).IsNode (m.serial fmt.d).x0 := fun j hj => ⟨le_refl _, hsf.side j hj⟩
  have hv0 := hP _ hnode
  have hPn : ∀ r, IsRank np r → ∀ x, ((m.world fmt.d ghosts np).shape r).IsNode x → P (cellAt ((m.world fmt.d ghosts np).shape r) (data r) x) := fun r hr x hx => by
    rw [hF r hr x hx]; exact hP x (Ghost.isNode_global hok.setup hr hx)
  let data' : Int → Int → T := fun r o => if P (data r o) then data r o else F (m.serial fmt.d).x0
  have heq : ∀ r, IsRank np r → ∀ x, ((m.world fmt.d ghosts np).shape r).IsNode x → cellAt ((m.world fmt.d ghosts np).shape r) (data r) x = cellAt ((m.world fmt.d ghosts np).shape r) (data' r) x :=
    fun r hr x hx => (if_pos (hPn r hr x hx)).symm
  obtain ⟨writes, e, rest⟩ := generate_denotes hfmt hm hok hnp hw (gen := fun r => .ok (data' r)) (data := data') (fun _ _ => rfl)
    (fun r _ o _ _ => by show P (if _ then _ else _); split <;> assumption) fun r hr x hx => (heq r hr x hx).symm.trans (hF r hr x hx)
  refine ⟨writes, Eq.trans ?_ e, rest⟩
  unfold generateFile
  rw [gather_congr (f' := fun n : Nat => ((fun r => Outcome.ok (data' r)) (n : Int)).bind fun a => writeBuffer fmt.comp fmt.cell ((m.world fmt.d ghosts np).shape n) a) fun n hn => ?_]
  have hr : IsRank np n := ⟨by omega, by omega⟩
  rw [Outcome.ok_bind, Outcome.ok_bind]
  exact writeBuffer_nodes (shape_wf hok hr) (heq n hr)

end

section
variable {α : Type} [Field α] [LinearOrder α] {P : α × α → Prop} {p : Params α} {g : Shape} {dx : Nat → α} {sqrt : α → α} {maxIter n : Nat} {ns : List Nat} {a : Int → α × α}
  (h : Printable P p g dx sqrt maxIter (n :: ns) a)
include h

private theorem printable_head (s) (e : update p g dx sqrt maxIter n (a, a) = .ok s) (x : Nat → Int) (hx : g.IsNode x) : P (cellAt g s.1 x) :=
  h 1 (by decide) (by simp) s.1 (by show (update p g dx sqrt maxIter n (a, a)).bind _ = _; rw [e]; rfl) x hx

private theorem printable_tail {s} (e : update p g dx sqrt maxIter n (a, a) = .ok s) : Printable P p g dx sqrt maxIter ns s.1 := fun k hk hl b hb x hx =>
  h (k + 1) (by omega) (by simpa using hl) b (by show (update p g dx sqrt maxIter n (a, a)).bind _ = _; rw [e]; exact hb) x hx

end

/-! ## One session -/

section
variable {α D : Type} {fmt : Format (α × α) D} {m : Meta D} (hm : m.Good fmt) {delta : D}
include hm

theorem respace_good (hdelta : fmt.dec.round6 delta = delta) : (respace fmt delta m).Good fmt where
  dim := hm.dim
  dimInt := hm.dimInt
  limits := hm.limits
  dx := List.length_replicate
  faces := hm.faces
  fields := hm.fields
  box := hm.box
  ints := hm.ints
  stable v hv := by rw [List.eq_of_mem_replicate hv]; exact hdelta

theorem spaced_eq : spaced fmt delta (m.spacing fmt.dx0) = (respace fmt delta m).spacing fmt.dx0 := by
  funext j
  unfold spaced Meta.spacing respace
  have := hm.dx
  split
  · rename_i h; simp [h]
  · rw [List.getD_eq_default _ _ (by omega), List.getD_eq_default _ _ (by rw [List.length_replicate]; omega)]

end

section
variable {α D : Type} [Field α] [LinearOrder α] {fmt : Format (α × α) D} {m : Meta D} (hfmt : fmt.Good fun _ => True) (hm : m.Good fmt) {P : α × α → Prop} (p : Params α) {delta : D} (hdelta : fmt.dec.round6 delta = delta) (conv : D → α) (sqrt : α → α) (maxIter : Nat)
  (hcol : ∀ j, j < fmt.d → 0 ≤ m.g0 j) (heven : ∀ j, j < fmt.d → m.B0 j = .periodic ∨ m.B1 j = .periodic → 2 ∣ m.g1 j - m.g0 j)
include hfmt hm hdelta hcol heven

theorem sitting_step {F : (Nat → Int) → α × α} {file : List Byte} (hfile : Denotes fmt m F file) {q : Sitting (α × α)} (hq : Ready fmt m P q) {a : Int → α × α}
    (ha : ∀ x, (m.serial fmt.d).IsNode x → cellAt (m.serial fmt.d) a x = F x)
    (hP : ∀ s, update p (m.serial fmt.d) (fun _ => conv delta) sqrt maxIter q.steps (a, a) = .ok s → ∀ x, (m.serial fmt.d).IsNode x → P (cellAt (m.serial fmt.d) s.1 x)) :
    (∃ s, update p (m.serial fmt.d) (fun _ => conv delta) sqrt maxIter q.steps (a, a) = .ok s ∧ (∃ file', Leaves fmt p delta conv sqrt maxIter q file file') ∧
      ∀ file', Leaves fmt p delta conv sqrt maxIter q file file' → Denotes fmt (respace fmt delta m) (cellAt (m.serial fmt.d) s.1) file') ∨
    (update p (m.serial fmt.d) (fun _ => conv delta) sqrt maxIter q.steps (a, a) = .abort (-1) ∧ Stops fmt p delta conv sqrt maxIter q file ∧
      ∀ file', ¬ Leaves fmt p delta conv sqrt maxIter q file file') := by
  have hall : ∀ (k : Nat) (v : α × α), fmt.cell.Valid v := fun _ v => hfmt.valid v trivial
  have hfmtP : fmt.Good P := ⟨hfmt.cell, hfmt.zlib, hfmt.name, hfmt.accepts, fun v _ => hfmt.valid v trivial⟩
  have hold : Holds m fmt.d (fun _ _ => True) F (fun _ => a) := ⟨ha, fun _ _ _ _ => trivial⟩
  cases hr : q.ranks with
  | some np =>
    have hok : (m.world fmt.d q.ghosts np).Ok np := by have := hq.ok; rwa [hr] at this
    have hnp : np < 2 ^ 31 := by have := hq.count; rwa [hr] at this
    have hnp0 := ranks_pos hok
    obtain ⟨O, hO, hstart⟩ := start (P := fun _ _ => True) hfmt trivial hfile hold hok (junk := q.junk) fun _ _ _ => trivial
    have hr0 : IsRank np 0 := ⟨le_refl _, by omega⟩
    have hr1 : IsRank np ((np : Int) - 1) := ⟨by omega, by omega⟩
    have hw := worldOf_eq hm hok (hO 0 hr0).2 (hO _ hr1).2
    obtain ⟨S1, g1, hS1⟩ := together_ok (n := np) (S := fun r => (openGrid fmt .mpi q.ghosts np file r).bind fun o => .ok (Function.update (q.junk r) 0 o.local_.data))
      (E := fun r => Function.update (q.junk r) 0 (O r).local_.data) q.junk fun r h0 h1 => by rw [(hO r ⟨h0, h1⟩).1]; rfl
    have hd : Disciplined (m.world fmt.d q.ghosts np).d (m.world fmt.d q.ghosts np).ghosts (fun _ (_ : α × α) => True) ⟨fun k => k = 0, fun _ => False⟩ [.ghostswap 0] oldKnown :=
      .ghostswap rfl (.nil ⟨fun _ => id, fun _ hk => Or.inr hk⟩)
    obtain ⟨σ1, D1, e1, e2, A1, -⟩ := parallel_eq_serial (c := fun _ => fmt.cell) (P := fun _ _ => True) (fun _ => hfmt.cell) (fun k v _ => hall k v) hok hd (σ := fun _ => a) (D := S1)
      (S := fun r => .ok (S1 r)) (fun _ _ => rfl)
      ⟨fun k hk r hr x hx => by
        have := (hstart _ hold).1.same k hk r hr x hx
        beta_reduce at this ⊢
        rw [hS1 r hr.1 hr.2]; exact this, fun _ hk => hk.elim⟩ ((fun _ => ⟨fun _ _ _ => trivial, fun _ _ _ _ _ => trivial⟩))
    obtain rfl : σ1 = fun _ => a := (Outcome.ok.inj e1).symm
    obtain ⟨S2, g2, hS2⟩ := together_ok (n := np) (E := D1) S1 fun r h0 h1 => e2 r ⟨h0, h1⟩
    have hpar := convex_parallel (c := fun _ => fmt.cell) (fun _ => hfmt.cell) hall hok hq.ghosts ⟨hcol, heven⟩ p (fun _ => conv delta) sqrt maxIter q.steps (field := a) (D := S2)
      fun r hr x hx => by rw [hS2 r hr.1 hr.2]; exact A1.same 0 rfl r hr x hx
    have hopen : ∀ {R : Type} (k : (Int → Grids (α × α)) → Outcome R), ((together np (fun r => (openGrid fmt .mpi q.ghosts np file r).bind fun o => .ok (Function.update (q.junk r) 0 o.local_.data)) q.junk).bind
        fun S => (together np (mpiRun (fun _ => fmt.cell) (m.world fmt.d q.ghosts np) [.ghostswap 0] fun r => .ok (S r)) S).bind k) = k S2 := by
      intro R k
      rw [g1, Outcome.ok_bind, g2, Outcome.ok_bind]
    have hses : parallelSitting fmt p delta conv sqrt maxIter q np file =
        (convexUpdate (fun _ => fmt.cell) (m.world fmt.d q.ghosts np) np p (fun _ => conv delta) sqrt maxIter q.steps S2).bind fun S =>
          generateFile fmt (respace fmt delta m) q.ghosts np fun r => .ok (S r 0) := by
      unfold parallelSitting
      rw [(hO 0 hr0).1, Outcome.ok_bind, (hO _ hr1).1, Outcome.ok_bind]
      dsimp only
      rw [hw, (hO 0 hr0).2.dx, spaced_eq hm, (hO 0 hr0).2.fields, (hO 0 hr0).2.g0, (hO 0 hr0).2.g1, hopen]
      rfl
    rcases hpar with ⟨s, D', u1, u2, u3⟩ | ⟨u1, u2⟩
    · left
      obtain ⟨writes, w1, out, w2, w3⟩ := nodes_denote (m := respace fmt delta m) hfmtP (respace_good hm hdelta) hok hnp (hq.fits np hr) (data := fun r => D' r 0) u3 (hP s u1)
      rw [u2, Outcome.ok_bind, w1] at hses
      refine ⟨s, u1, ⟨out, ?_⟩, fun file' hp => ?_⟩
      · unfold Leaves; rw [hr]; exact ⟨writes, writes, hses, List.Perm.refl _, w2 _ (List.Perm.refl _)⟩
      · unfold Leaves at hp; rw [hr] at hp
        obtain ⟨ws, W, k1, k2, k3⟩ := hp
        obtain rfl : writes = ws := Outcome.ok.inj (hses.symm.trans k1)
        obtain rfl : out = file' := List.ext_getElem? fun i => ((w2 W k2 i).symm.trans (k3 i))
        exact w3
    · right
      rw [u2] at hses
      refine ⟨u1, ?_, fun file' hp => ?_⟩
      · unfold Stops; rw [hr]; exact hses
      · unfold Leaves at hp; rw [hr] at hp
        obtain ⟨ws, W, k1, -⟩ := hp
        rw [hses] at k1
        cases k1
  | none =>
    have hok : (m.world fmt.d q.ghosts 1).Ok 1 := by have := hq.ok; rwa [hr] at this
    have hr0 : IsRank 1 0 := ⟨le_refl _, by decide⟩
    have hne : ∀ j, j < fmt.d → m.g0 j < m.g1 j := fun j hj => (ParallelRun.serial_wf hok).side j hj
    obtain ⟨o, ho1, ho2⟩ := hfile .serial fmt.name hfmt.accepts q.ghosts hok.setup.ghosts 1 0 hr0
    have hw := serialWorld_eq hm hne ho2
    have hb : SameBox (m.serial fmt.d) o.local_.shape := by
      obtain ⟨b1, b2, b3, b4⟩ := ho2.box
      exact ⟨b1.symm, b2.symm, b3.symm, b4.symm⟩
    have hb' : ∀ x, (m.serial fmt.d).IsNode x → cellAt (m.serial fmt.d) o.local_.data x = F x := fun x hx => by
      rw [hb.cellAt]; exact ho2.value x ((hb.node x).mp hx)
    have hses : serialSitting fmt p delta conv sqrt maxIter q file =
        generateSerial fmt (respace fmt delta m) ((update p (m.serial fmt.d) (fun _ => conv delta) sqrt maxIter q.steps (o.local_.data, o.local_.data)).bind fun s => .ok s.1) := by
      have ho1' : openGrid fmt .serial q.ghosts 1 file 0 = .ok o := ho1
      unfold serialSitting
      rw [ho1', Outcome.ok_bind]
      dsimp only
      rw [hw, ho2.dx, spaced_eq hm, ho2.fields, ho2.g0, ho2.g1]
      unfold generateSerial
      cases update p (m.serial fmt.d) (fun _ => conv delta) sqrt maxIter q.steps (o.local_.data, o.local_.data) <;> rfl
    -- both serial programs do what one rank that holds the field does
    obtain ⟨O, hO, hstart⟩ := start (P := fun _ _ => True) hfmt trivial hfile hold hok (junk := q.junk) fun _ _ _ => trivial
    have hpar : ∀ b : Int → α × α, (∀ x, (m.serial fmt.d).IsNode x → cellAt (m.serial fmt.d) b x = F x) → _ := fun b hb =>
      convex_parallel (c := fun _ => fmt.cell) (fun _ => hfmt.cell) hall hok hq.ghosts ⟨hcol, heven⟩ p (fun _ => conv delta) sqrt maxIter q.steps (field := b)
        (D := fun r => Function.update (q.junk r) 0 (O r).local_.data) fun r hr x hx => (hstart (fun _ => b) ⟨hb, fun _ _ _ _ => trivial⟩).1.same 0 rfl r hr x hx
    rcases hpar a ha with ⟨s, D', u1, u2, u3⟩ | ⟨u1, u2⟩
    · rcases hpar _ hb' with ⟨s', D'', v1, v2, v3⟩ | ⟨v1, v2⟩
      · left
        obtain rfl : D' = D'' := Outcome.ok.inj (u2.symm.trans v2)
        have v1' : update p (m.serial fmt.d) (fun _ => conv delta) sqrt maxIter q.steps (o.local_.data, o.local_.data) = .ok s' := v1
        have same : ∀ x, (m.serial fmt.d).IsNode x → cellAt (m.serial fmt.d) s'.1 x = cellAt (m.serial fmt.d) s.1 x := fun x hx => by
          obtain ⟨r, hr, hxr⟩ := owner hok (y := x) hx
          exact (v3 r hr x hxr).symm.trans (u3 r hr x hxr)
        obtain ⟨out, w1, w2⟩ := serial_denotes (P := P) (m := respace fmt delta m) hfmtP (respace_good hm hdelta) (hq.serialFits hr) (gen := .ok s'.1) rfl fun o h0 h1 => by
            obtain ⟨x, hx, rfl⟩ := serial_cell (g := m.serial fmt.d) (ParallelRun.serial_wf hok) rfl h0 h1
            have h := hP s u1 x hx
            rwa [← same x hx] at h
        rw [v1', Outcome.ok_bind, w1] at hses
        refine ⟨s, u1, ⟨out, ?_⟩, fun file' hp => ?_⟩
        · unfold Leaves; rw [hr]; exact hses
        · unfold Leaves at hp; rw [hr] at hp
          obtain rfl : out = file' := Outcome.ok.inj (hses.symm.trans hp)
          exact w2.congr same
      · rw [u2] at v2; cases v2
    · rcases hpar _ hb' with ⟨s', D'', v1, v2, v3⟩ | ⟨v1, v2⟩
      · rw [u2] at v2; cases v2
      · right
        have v1' : update p (m.serial fmt.d) (fun _ => conv delta) sqrt maxIter q.steps (o.local_.data, o.local_.data) = .abort (-1) := v1
        rw [v1'] at hses
        refine ⟨u1, ?_, fun file' hp => ?_⟩
        · unfold Stops; rw [hr]; exact hses
        · unfold Leaves at hp; rw [hr] at hp
          rw [hses] at hp
          cases hp

/-! ## All sessions -/

private theorem sittings_same (hsp : respace fmt delta m = m) : ∀ {qs : List (Sitting (α × α))}, (∀ q ∈ qs, Ready fmt m P q) → ∀ {F : (Nat → Int) → α × α} {file : List Byte}, Denotes fmt m F file →
    ∀ {a : Int → α × α}, (∀ x, (m.serial fmt.d).IsNode x → cellAt (m.serial fmt.d) a x = F x) → Printable P p (m.serial fmt.d) (fun _ => conv delta) sqrt maxIter (qs.map Sitting.steps) a →
    (∃ b, calls p (m.serial fmt.d) (fun _ => conv delta) sqrt maxIter (qs.map Sitting.steps) a = .ok b ∧ (∃ last, Sittings fmt p delta conv sqrt maxIter qs file last) ∧
      ∀ last, Sittings fmt p delta conv sqrt maxIter qs file last → Denotes fmt m (cellAt (m.serial fmt.d) b) last) ∨
    (calls p (m.serial fmt.d) (fun _ => conv delta) sqrt maxIter (qs.map Sitting.steps) a = .abort (-1) ∧ (∀ last, ¬ Sittings fmt p delta conv sqrt maxIter qs file last) ∧
      ∃ pre q post f, qs = pre ++ q :: post ∧ Sittings fmt p delta conv sqrt maxIter pre file f ∧ Stops fmt p delta conv sqrt maxIter q f) := by
  intro qs
  induction qs with
  | nil =>
    intro _ F file hfile a ha _
    refine .inl ⟨a, rfl, ⟨file, .nil _⟩, fun last h => ?_⟩
    cases h
    exact hfile.congr fun x hx => (ha x hx).symm
  | cons q qs ih =>
    intro hqs F file hfile a ha hP
    rcases sitting_step hfmt hm p hdelta conv sqrt maxIter hcol heven hfile (hqs q (by simp)) ha (printable_head hP) with ⟨s, e, ⟨f1, h1⟩, hall⟩ | ⟨e, hst, hno⟩
    · rw [hsp] at hall
      have ec : calls p (m.serial fmt.d) (fun _ => conv delta) sqrt maxIter ((q :: qs).map Sitting.steps) a = calls p (m.serial fmt.d) (fun _ => conv delta) sqrt maxIter (qs.map Sitting.steps) s.1 := by
        show (update _ _ _ _ _ _ _).bind _ = _
        rw [e, Outcome.ok_bind]
      have ih' := fun {f' : List Byte} (hf : Leaves fmt p delta conv sqrt maxIter q file f') => ih (fun q' hq' => hqs q' (by simp [hq'])) (hall _ hf) (a := s.1) (fun _ _ => rfl) (printable_tail hP e)
      rcases ih' h1 with ⟨b, eb, ⟨last, hl⟩, -⟩ | ⟨eb, -, pre, q', post, f, g1, g2, g3⟩
      · refine .inl ⟨b, ec.trans eb, ⟨last, .cons h1 hl⟩, fun last' hc => ?_⟩
        cases hc with
        | cons hd tl =>
          rcases ih' hd with ⟨b', eb', -, hb⟩ | ⟨eb', -⟩
          · obtain rfl : b = b' := Outcome.ok.inj (eb.symm.trans eb')
            exact hb _ tl
          · rw [eb] at eb'; cases eb'
      · refine .inr ⟨ec.trans eb, fun last' hc => ?_, q :: pre, q', post, f, by rw [g1]; rfl, .cons h1 g2, g3⟩
        cases hc with
        | cons hd tl =>
          rcases ih' hd with ⟨b', eb', -, hb⟩ | ⟨eb', hno, -⟩
          · rw [eb] at eb'; cases eb'
          · exact hno _ tl
    · refine .inr ⟨?_, fun last hc => ?_, [], q, qs, file, rfl, .nil _, hst⟩
      · show (update _ _ _ _ _ _ _).bind _ = _
        rw [e]; rfl
      · cases hc with
        | cons hd tl => exact hno _ hd

/-- **C116.** Any sessions, serial or on any number of ranks, one after the other: either one serial program that makes the same calls of `update` ends with a field `b`, the sessions can be carried out,
and every file they may end with holds `b` and the spacing of the program; or that serial program stops with -1, no file is ever left by the last session, and one of the sessions stops with -1. -/
theorem sittings {q : Sitting (α × α)} {qs : List (Sitting (α × α))} (hqs : ∀ q' ∈ q :: qs, Ready fmt m P q') {F : (Nat → Int) → α × α} {file : List Byte} (hfile : Denotes fmt m F file)
    {a : Int → α × α} (ha : ∀ x, (m.serial fmt.d).IsNode x → cellAt (m.serial fmt.d) a x = F x)
    (hP : Printable P p (m.serial fmt.d) (fun _ => conv delta) sqrt maxIter ((q :: qs).map Sitting.steps) a) :
    (∃ b, calls p (m.serial fmt.d) (fun _ => conv delta) sqrt maxIter ((q :: qs).map Sitting.steps) a = .ok b ∧ (∃ last, Sittings fmt p delta conv sqrt maxIter (q :: qs) file last) ∧
      ∀ last, Sittings fmt p delta conv sqrt maxIter (q :: qs) file last → Denotes fmt (respace fmt delta m) (cellAt (m.serial fmt.d) b) last) ∨
    (calls p (m.serial fmt.d) (fun _ => conv delta) sqrt maxIter ((q :: qs).map Sitting.steps) a = .abort (-1) ∧ (∀ last, ¬ Sittings fmt p delta conv sqrt maxIter (q :: qs) file last) ∧
      ∃ pre q' post f, q :: qs = pre ++ q' :: post ∧ Sittings fmt p delta conv sqrt maxIter pre file f ∧ Stops fmt p delta conv sqrt maxIter q' f) := by
  rcases sitting_step hfmt hm p hdelta conv sqrt maxIter hcol heven hfile (hqs q (by simp)) ha (printable_head hP) with ⟨s, e, ⟨f1, h1⟩, hall⟩ | ⟨e, hst, hno⟩
  · have ec : calls p (m.serial fmt.d) (fun _ => conv delta) sqrt maxIter ((q :: qs).map Sitting.steps) a = calls p (m.serial fmt.d) (fun _ => conv delta) sqrt maxIter (qs.map Sitting.steps) s.1 := by
      show (update _ _ _ _ _ _ _).bind _ = _
      rw [e, Outcome.ok_bind]
    have ih' := fun {f' : List Byte} (hf : Leaves fmt p delta conv sqrt maxIter q file f') =>
      sittings_same hfmt (respace_good hm hdelta) p hdelta conv sqrt maxIter hcol heven rfl (qs := qs) (fun q' hq' =>
        have h := hqs q' (by simp [hq'])
        ⟨h.ok, h.count, h.ghosts, h.serialFits, h.fits⟩) (hall _ hf) (a := s.1) (fun _ _ => rfl) (printable_tail hP e)
    rcases ih' h1 with ⟨b, eb, ⟨last, hl⟩, -⟩ | ⟨eb, -, pre, q', post, f, g1, g2, g3⟩
    · refine .inl ⟨b, ec.trans eb, ⟨last, .cons h1 hl⟩, fun last' hc => ?_⟩
      cases hc with
      | cons hd tl =>
        rcases ih' hd with ⟨b', eb', -, hb⟩ | ⟨eb', -⟩
        · obtain rfl : b = b' := Outcome.ok.inj (eb.symm.trans eb')
          exact hb _ tl
        · cases eb.symm.trans eb'
    · refine .inr ⟨ec.trans eb, fun last' hc => ?_, q :: pre, q', post, f, by rw [g1]; rfl, .cons h1 g2, g3⟩
      cases hc with
      | cons hd tl =>
        rcases ih' hd with ⟨b', eb', -, hb⟩ | ⟨eb', hno, -⟩
        · cases eb.symm.trans eb'
        · exact hno _ tl
  · refine .inr ⟨?_, fun last hc => ?_, [], q, qs, file, rfl, .nil _, hst⟩
    · show (update _ _ _ _ _ _ _).bind _ = _
      rw [e]; rfl
    · cases hc with
      | cons hd tl => exact hno _ hd

end

/-! ## What the calls do -/

section
variable {α : Type} [Field α] [LinearOrder α] [IsStrictOrderedRing α] {g : Shape} (hs : Serial g) {p : Params α} {dx : Nat → α} {sqrt : α → α}
include hs

omit [IsStrictOrderedRing α] hs in
private theorem steps_states {n : Nat} {s s' : (Int → α × α) × (Int → α × α)} (h : Steps p g dx sqrt n s s') :
    ∃ l : List (Int → α × α), l.length = n ∧ List.IsChain (Passed p g dx sqrt) (s.1 :: l) ∧ (s.1 :: l).getLast (List.cons_ne_nil _ _) = s'.1 := by
  induction h with
  | zero s => exact ⟨[], rfl, .singleton _, rfl⟩
  | @succ n s new s' h ht ih =>
    obtain ⟨l, h1, h2, h3⟩ := ih
    exact ⟨new :: l, by simp [h1], .cons_cons h h2, by rw [List.getLast_cons (List.cons_ne_nil _ _)]; exact h3⟩

omit [IsStrictOrderedRing α] in
/-- **C116.** Between the first and the last field there is one field per step, and each follows from the one before with a residual that passed the test. -/
theorem calls_states (hp : Linearised p) (hd : Solvable p g dx) (maxIter : Nat) : ∀ {ns : List Nat} {a b : Int → α × α}, calls p g dx sqrt maxIter ns a = .ok b →
    ∃ l : List (Int → α × α), l.length = ns.sum ∧ List.IsChain (Passed p g dx sqrt) (a :: l) ∧ (a :: l).getLast (List.cons_ne_nil _ _) = b := by
  intro ns
  induction ns with
  | nil => intro a b h; exact ⟨[], rfl, .singleton _, Outcome.ok.inj h⟩
  | cons n ns ih =>
    intro a b h
    unfold calls at h
    rcases update_spec hs hp hd sqrt maxIter n (a, a) with e | ⟨s, e, hst⟩
    · rw [e] at h; cases h
    · rw [e, Outcome.ok_bind] at h
      obtain ⟨l1, a1, a2, a3⟩ := steps_states hst
      obtain ⟨l2, b1, b2, b3⟩ := ih h
      refine ⟨l1 ++ l2, by simp [a1, b1], ?_, ?_⟩
      · rw [← List.cons_append]
        cases l2 with
        | nil => rw [List.append_nil]; exact a2
        | cons y l2 =>
          refine a2.append (List.IsChain.tail b2) ?_
          intro x hx z hz
          rw [List.getLast?_eq_some_getLast (List.cons_ne_nil _ _), a3] at hx
          obtain rfl := Option.some.inj hx
          obtain rfl := Option.some.inj hz
          exact (List.isChain_cons_cons.mp b2).1
      · cases l2 with
        | nil => simp only [List.append_nil]; rw [a3]; exact b3
        | cons y l2 =>
          rw [← b3]
          simp

omit hs in
private theorem upper_bound (hq : UpperRoot sqrt) {old new : Int → α × α} (h : Passed p g dx sqrt old new) : missing p g dx old new ≤ (2 * (g.nodes.toNat : α) * p.tol) ^ 2 * rhs p g old := by
  unfold Passed tooLarge at h
  have hm := missing_nonneg (g := g) p dx old new
  have hr := rhs_nonneg (g := g) p old
  by_cases e : rhs p g old = 0
  · rw [if_pos e] at h
    simp only [ne_eq, decide_eq_false_iff_not, not_not] at h
    rw [h, e]; simp
  · rw [if_neg e] at h
    simp only [decide_eq_false_iff_not, not_lt] at h
    have hpos : 0 < rhs p g old := lt_of_le_of_ne hr (Ne.symm e)
    obtain ⟨s0, s1⟩ := hq.2 (missing p g dx old new / rhs p g old) (div_nonneg hm hr)
    have hN : 0 < (g.nodes.toNat : α) := by
      rcases Nat.eq_zero_or_pos g.nodes.toNat with h0 | h0
      · exfalso; apply e; unfold rhs total; rw [h0]; simp
      · exact_mod_cast h0
    rw [div_le_iff₀ (by positivity)] at h
    have := mul_self_le_mul_self s0 h
    rw [← sq] at this
    have := le_trans s1 this
    rw [div_le_iff₀ hpos] at this
    calc _ ≤ _ := this
      _ = _ := by ring

private theorem upper_mass (hq : UpperRoot sqrt) {old new : Int → α × α} (h : Passed p g dx sqrt old new) :
    (total g (fun n => (new n).1) - total g (fun n => (old n).1)) ^ 2 ≤ (g.nodes.toNat : α) * ((2 * (g.nodes.toNat : α) * p.tol) ^ 2 * rhs p g old) := by
  rw [mass_defect hs p dx old new]
  have e : total g (fun n => (old n).1) - total g (r1 p g dx old new) - total g (fun n => (old n).1) = -total g (r1 p g dx old new) := by ring
  rw [e, neg_sq]
  have c := sq_sum_le_card_mul_sum_sq (s := Finset.range g.nodes.toNat) (f := fun n : Nat => r1 p g dx old new n)
  rw [Finset.card_range] at c
  refine le_trans c (mul_le_mul_of_nonneg_left (le_trans ?_ (upper_bound hq h)) (Nat.cast_nonneg _))
  exact Finset.sum_le_sum fun n _ => by nlinarith [sq_nonneg (r2 p g dx old new n)]

/-- **C116.** The mass may drift by at most a root of the sum of squares of the right-hand sides for each step. -/
theorem chain_mass (hq : UpperRoot sqrt) : ∀ {l : List (Int → α × α)} {a : Int → α × α}, List.IsChain (Passed p g dx sqrt) (a :: l) →
    |total g (fun n => ((a :: l).getLast (List.cons_ne_nil _ _) n).1) - total g (fun n => (a n).1)| ≤
      ((a :: l).dropLast.map fun old => sqrt ((g.nodes.toNat : α) * ((2 * (g.nodes.toNat : α) * p.tol) ^ 2 * rhs p g old))).sum := by
  intro l
  induction l with
  | nil => intro a _; simp
  | cons y l ih =>
    intro a h
    obtain ⟨h1, h2⟩ := List.isChain_cons_cons.mp h
    have k := upper_mass hs hq h1
    have r0 : 0 ≤ (g.nodes.toNat : α) * ((2 * (g.nodes.toNat : α) * p.tol) ^ 2 * rhs p g a) :=
      mul_nonneg (Nat.cast_nonneg _) (mul_nonneg (sq_nonneg _) (rhs_nonneg p a))
    obtain ⟨s0, s1⟩ := hq.2 _ r0
    have k'' := abs_le_of_sq_le_sq (a := total g (fun n => (y n).1) - total g (fun n => (a n).1)) (k.trans s1) s0
    rw [List.getLast_cons (List.cons_ne_nil _ _), List.dropLast_cons_of_ne_nil (List.cons_ne_nil _ _), List.map_cons, List.sum_cons]
    have t := abs_sub_le (total g (fun n => ((y :: l).getLast (List.cons_ne_nil _ _) n).1)) (total g (fun n => (y n).1)) (total g (fun n => (a n).1))
    linarith [ih h2]

omit [IsStrictOrderedRing α] in
/-- **C116.** A field that solves the equations of a step with itself stays as it is. -/
theorem calls_rest (hg : Nonneg g) (hp : Linearised p) (hw : p.omega ≠ 0) (ht : 0 ≤ p.tol) (hd : Solvable p g dx) (hq : UpperRoot sqrt) {maxIter : Nat} (hmax : 2 ≤ maxIter) {a : Int → α × α}
    (h : Scheme p g dx a a) (ns : List Nat) : calls p g dx sqrt maxIter ns a = .ok a := by
  have hit := (iteration_fixed_iff hs hg hp hw hd a a).mpr h
  have hmis : missing p g dx a a = 0 := by
    unfold missing total
    refine Finset.sum_eq_zero fun n hn => ?_
    have := h (n : Int) (by omega) (by have := Finset.mem_range.mp hn; omega)
    show r1 p g dx a a n ^ 2 + r2 p g dx a a n ^ 2 = 0
    rw [this.1, this.2]; ring
  have hpass : tooLarge p g sqrt (missing p g dx a a, rhs p g a) = false := by
    unfold tooLarge
    rw [hmis]
    split
    · simp
    · simp [hq.1, ht]
  have hsol : solve p g dx sqrt a maxIter 0 true a = .ok a := by
    obtain ⟨k, rfl⟩ : ∃ k, maxIter = k + 2 := ⟨maxIter - 2, by omega⟩
    unfold solve
    rw [if_pos rfl, hit, Outcome.ok_bind, if_pos (by left; omega), residual_ok hs, Outcome.ok_bind, Outcome.ok_bind, hpass]
    unfold solve
    rfl
  have hup : ∀ n, update p g dx sqrt maxIter n (a, a) = .ok (a, a) := by
    intro n
    induction n with
    | zero => rfl
    | succ n ih => unfold ConvexSplit.update; rw [hsol, Outcome.ok_bind]; exact ih
  induction ns with
  | nil => rfl
  | cons n ns ih => unfold calls; rw [hup n, Outcome.ok_bind]; exact ih

end

/-! ## From `generate` to the last restart -/

section
variable {α D : Type} [Field α] [LinearOrder α] [IsStrictOrderedRing α] {fmt : Format (α × α) D} {m : Meta D} (hfmt : fmt.Good fun _ => True) (hm : m.Good fmt) {P : α × α → Prop} {p : Params α} (hp : Linearised p) {delta : D}
  (hdx : m.dx = List.replicate fmt.d delta) {conv : D → α} (hd : Solvable p (m.serial fmt.d) fun _ => conv delta) {sqrt : α → α} (hq : UpperRoot sqrt) {maxIter : Nat} (hs : Serial (m.serial fmt.d))
  (hcol : ∀ j, j < fmt.d → 0 ≤ m.g0 j) (heven : ∀ j, j < fmt.d → m.B0 j = .periodic ∨ m.B1 j = .periodic → 2 ∣ m.g1 j - m.g0 j)
include hfmt hm hp hdx hd hq hs hcol heven

/-- **C116.** From `generate` on any number of ranks to the last of any sessions: the first file holds any composition the generator chose with its chemical potential; unless one of the sessions stops with -1, the last
file holds the end of a list of fields with one member per step, each of which follows from the one before with a residual that passed the test, and its mass is that of the first file up to the
bound per step. -/
theorem whole {ghosts : Int} {np : Nat} (hok : (m.world fmt.d ghosts np).Ok np) (hnp : np < 2 ^ 31) (hw : ∀ r, IsRank np r → Writes fmt P ((m.world fmt.d ghosts np).shape r)) (hgh : 1 ≤ ghosts)
    (fill : Int → Int → α) (new : Int → Int → α × α) {qs : List (Sitting (α × α))} (hqs : ∀ q ∈ qs, Ready fmt m P q)
    (hP : ∀ a, HasPotential p (m.serial fmt.d) (fun _ => conv delta) a →
      (∀ r, IsRank np r → ∀ i, 0 ≤ i → i < ((m.world fmt.d ghosts np).shape r).nodes → (cellAt (m.serial fmt.d) a (((m.world fmt.d ghosts np).shape r).position i)).1 = fill r i) →
      (∀ x, (m.serial fmt.d).IsNode x → P (cellAt (m.serial fmt.d) a x)) ∧ Printable P p (m.serial fmt.d) (fun _ => conv delta) sqrt maxIter (qs.map Sitting.steps) a) :
    ∃ writes, generateFile fmt m ghosts np (convexRanks fmt.cell (m.world fmt.d ghosts np) p (fun _ => conv delta) fill new) = .ok writes ∧
    ∃ first a, (∀ W, W.Perm writes → ∀ i, written W i = first[i]?) ∧
      (∀ r, IsRank np r → ∀ i, 0 ≤ i → i < ((m.world fmt.d ghosts np).shape r).nodes → (cellAt (m.serial fmt.d) a (((m.world fmt.d ghosts np).shape r).position i)).1 = fill r i) ∧
      HasPotential p (m.serial fmt.d) (fun _ => conv delta) a ∧
      ((calls p (m.serial fmt.d) (fun _ => conv delta) sqrt maxIter (qs.map Sitting.steps) a = .abort (-1) ∧
          ∃ pre q post f, qs = pre ++ q :: post ∧ Sittings fmt p delta conv sqrt maxIter pre first f ∧ Stops fmt p delta conv sqrt maxIter q f) ∨
        ∃ l : List (Int → α × α), calls p (m.serial fmt.d) (fun _ => conv delta) sqrt maxIter (qs.map Sitting.steps) a = .ok ((a :: l).getLast (List.cons_ne_nil _ _)) ∧ l.length = (qs.map Sitting.steps).sum ∧ List.IsChain (Passed p (m.serial fmt.d) (fun _ => conv delta) sqrt) (a :: l) ∧
          (∃ last, Sittings fmt p delta conv sqrt maxIter qs first last) ∧
          (∀ last, Sittings fmt p delta conv sqrt maxIter qs first last → Denotes fmt m (cellAt (m.serial fmt.d) ((a :: l).getLast (List.cons_ne_nil _ _))) last) ∧
          |total (m.serial fmt.d) (fun n => ((a :: l).getLast (List.cons_ne_nil _ _) n).1) - total (m.serial fmt.d) (fun n => (a n).1)| ≤
            ((a :: l).dropLast.map fun old => sqrt (((m.serial fmt.d).nodes.toNat : α) * ((2 * ((m.serial fmt.d).nodes.toNat : α) * p.tol) ^ 2 * rhs p (m.serial fmt.d) old))).sum) := by
  have hdelta : fmt.dec.round6 delta = delta := hm.stable delta (by rw [hdx]; exact List.mem_replicate.mpr ⟨by have := hm.dim; omega, rfl⟩)
  have hsp : respace fmt delta m = m := by unfold respace; rw [← hdx]
  have hfmtP : fmt.Good P := ⟨hfmt.cell, hfmt.zlib, hfmt.name, hfmt.accepts, fun v _ => hfmt.valid v trivial⟩
  obtain ⟨a, D', g1, g2, h3, h4⟩ := convex_ranks hok hgh hs hfmt.cell (fun v => hfmt.valid v trivial) p (fun _ => conv delta) fill new
  obtain ⟨writes, e, first, h1, h2⟩ := nodes_denote hfmtP hm hok hnp hw g2 (hP a h4 h3).1
  have e : generateFile fmt m ghosts np (convexRanks fmt.cell (m.world fmt.d ghosts np) p (fun _ => conv delta) fill new) = .ok writes := by
    rw [← e]
    unfold generateFile
    rw [gather_congr (f' := fun n : Nat => ((fun r => Outcome.ok (D' r)) (n : Int)).bind fun a => writeBuffer fmt.comp fmt.cell ((m.world fmt.d ghosts np).shape n) a) fun n hn => ?_]
    rw [g1 n ⟨by omega, by omega⟩]
  refine ⟨writes, e, first, a, h1, h3, h4, ?_⟩
  rcases sittings_same hfmt hm p hdelta conv sqrt maxIter hcol heven hsp hqs h2 (a := a) (fun _ _ => rfl) (hP a h4 h3).2 with ⟨b, eb, hl, hall⟩ | ⟨eb, -, hstop⟩
  · obtain ⟨l, l1, l2, l3⟩ := calls_states hs hp hd maxIter eb
    exact .inr ⟨l, by rw [l3]; exact eb, l1, l2, hl, by rw [l3]; exact hall, chain_mass hs hq l2⟩
  · exact .inl ⟨eb, hstop⟩

end

/-! ## Examples -/

/-- A natural number as so many ones and a zero. -/
def tally : Cell Nat where
  Valid := fun _ => True
  size := fun n => n + 1
  enc := fun n => List.replicate n 1 ++ [0]
  dec := fun buf => if (buf.takeWhile (· == 1)).length < buf.length then .ok ((buf.takeWhile (· == 1)).length, (buf.takeWhile (· == 1)).length + 1) else .ub

theorem tally_roundTrips : RoundTrips tally := by
  intro n _
  refine ⟨by simp [tally], fun rest => ?_⟩
  have h : ((List.replicate n (1 : Byte) ++ [0] ++ rest).takeWhile (· == 1)).length = n := by
    rw [List.append_assoc, List.takeWhile_append_of_pos (by intro a ha; rw [List.eq_of_mem_replicate ha]; rfl)]
    simp
  show (if ((List.replicate n (1 : Byte) ++ [0] ++ rest).takeWhile (· == 1)).length < (List.replicate n (1 : Byte) ++ [0] ++ rest).length then Outcome.ok (_, _) else _) = _
  rw [h, if_pos (by simp)]
  show Outcome.ok (((List.replicate n (1 : Byte) ++ [0] ++ rest).takeWhile (· == 1)).length, ((List.replicate n (1 : Byte) ++ [0] ++ rest).takeWhile (· == 1)).length + 1) = .ok (n, n + 1)
  rw [h]

/-- One cell behind the other. -/
def both {V W : Type} (c : Cell V) (d : Cell W) : Cell (V × W) where
  Valid := fun v => c.Valid v.1 ∧ d.Valid v.2
  size := fun v => c.size v.1 + d.size v.2
  enc := fun v => c.enc v.1 ++ d.enc v.2
  dec := fun buf => (c.dec buf).bind fun a => (d.dec (buf.drop a.2)).bind fun b => .ok ((a.1, b.1), a.2 + b.2)

theorem both_roundTrips {V W : Type} {c : Cell V} {d : Cell W} (hc : RoundTrips c) (hd : RoundTrips d) : RoundTrips (both c d) := by
  rintro ⟨v, w⟩ ⟨hv, hw⟩
  obtain ⟨c1, c2⟩ := hc v hv
  obtain ⟨d1, d2⟩ := hd w hw
  refine ⟨by simp [both, c1, d1], fun rest => ?_⟩
  have : ((c.enc v ++ d.enc w) ++ rest).drop (c.size v) = d.enc w ++ rest := by rw [← c1, List.append_assoc, List.drop_left]
  have e : c.dec ((c.enc v ++ d.enc w) ++ rest) = .ok (v, c.size v) := by rw [List.append_assoc]; exact c2 _
  show (c.dec ((c.enc v ++ d.enc w) ++ rest)).bind _ = _
  rw [e, Outcome.ok_bind]
  show (d.dec (((c.enc v ++ d.enc w) ++ rest).drop (c.size v))).bind _ = _
  rw [this, d2]; rfl

/-- A fraction: positive and negative part of the numerator, and the denominator. -/
def fraction : Cell ℚ :=
  mapCell (both (both tally tally) tally) (fun q => ((q.num.toNat, (-q.num).toNat), q.den)) fun t => (((t.1.1 : Int) - (t.1.2 : Int) : Int) : ℚ) / (t.2 : ℚ)

theorem fraction_valid (q : ℚ) : fraction.Valid q := by
  refine ⟨⟨⟨trivial, trivial⟩, trivial⟩, ?_⟩
  show ((((q.num.toNat : Int) - ((-q.num).toNat : Int) : Int)) : ℚ) / (q.den : ℚ) = q
  rw [show ((q.num.toNat : Int) - ((-q.num).toNat : Int)) = q.num by omega]
  exact Rat.num_div_den q

/-- A file format for all pairs of fractions. -/
def fractions : Format (ℚ × ℚ) { n : Int // -2 ^ 31 ≤ n ∧ n < 2 ^ 31 } :=
  ⟨none, both fraction fraction, fun _ => (0, 0), wholeDecimal, ⟨1, by decide⟩, gridName (ascii "vector:double"), 1⟩

theorem fractions_good : fractions.Good fun _ => True :=
  have h := mapCell_roundTrips (both_roundTrips (both_roundTrips tally_roundTrips tally_roundTrips) tally_roundTrips) (fun q : ℚ => ((q.num.toNat, (-q.num).toNat), q.den))
    fun t => (((t.1.1 : Int) - (t.1.2 : Int) : Int) : ℚ) / (t.2 : ℚ)
  ⟨both_roundTrips h h, by rintro z ⟨⟩, show newline ∉ gridName (ascii "vector:double") by decide,
    show checkType (gridName (ascii "vector:double")) (gridName (ascii "vector:double")) = .ok () by decide, fun v _ => ⟨fraction_valid _, fraction_valid _⟩⟩

/-- Not below the root of a fraction. -/
def above (x : ℚ) : ℚ := if x = 0 then 0 else (x + 1) / 2

theorem above_root : UpperRoot above := by
  refine ⟨rfl, fun x hx => ?_⟩
  unfold above
  split
  · simp [*]
  · exact ⟨by positivity, by nlinarith [sq_nonneg (x - 1)]⟩

/-- The root of a real number. -/
example : UpperRoot Real.sqrt := ⟨Real.sqrt_zero, fun x hx => ⟨Real.sqrt_nonneg x, by rw [Real.sq_sqrt hx]⟩⟩

/-- Four sessions on the line of 1024 nodes: serial, on four ranks, on two ranks, serial again. -/
def four (junk : Int → Grids (ℚ × ℚ)) : List (Sitting (ℚ × ℚ)) := [⟨none, 1, 7, junk⟩, ⟨some 4, 1, 3, junk⟩, ⟨some 2, 1, 0, junk⟩, ⟨none, 1, 5, junk⟩]

private theorem ring_serial : Serial ((ring 2).serial 1) := ⟨ParallelRun.serial_wf (ring_ok 2 (np := 1) (by decide)), rfl, fun j hj => by
  obtain rfl : j = 0 := by change j < 1 at hj; omega
  exact Or.inl ⟨rfl, rfl⟩⟩

private theorem ring_writes_one {np : Nat} (h : np = 1 ∨ np = 2 ∨ np = 4) {r : Int} (hr : IsRank np r) : Writes fractions (fun v => v = (1, 0)) (((ring 2).world 1 1 np).shape r) :=
  ring_writes (fmt := fractions) rfl fractions_good.cell (fun v _ => fractions_good.valid v trivial) (fun v hv => by rw [hv]; decide +kernel) 2 h hr

private theorem four_ready (junk : Int → Grids (ℚ × ℚ)) : ∀ q ∈ four junk, Ready fractions (ring 2) (fun v => v = (1, 0)) q := by
  have hser : Fits fractions (fun v => v = (1, 0)) ((ring 2).serial 1) :=
    (bounded_fits (fmt := fractions) rfl fractions_good.cell (fun v _ => fractions_good.valid v trivial) (B := 1000) (fun v hv => by rw [hv]; decide +kernel) ring_serial.wf (by decide +kernel)).1
  intro q hq
  simp only [four, List.mem_cons, List.not_mem_nil, or_false] at hq
  rcases hq with rfl | rfl | rfl | rfl
  · exact ⟨ring_ok 2 (np := 1) (by decide), show 1 < 2 ^ 31 by decide, le_refl _, fun _ => hser, fun np h => by cases h⟩
  · exact ⟨ring_ok 2 (np := 4) (by decide), show 4 < 2 ^ 31 by decide, le_refl _, (fun h => by cases h), fun np h r hr => by cases h; exact ring_writes_one (by decide) hr⟩
  · exact ⟨ring_ok 2 (np := 2) (by decide), show 2 < 2 ^ 31 by decide, le_refl _, (fun h => by cases h), fun np h r hr => by cases h; exact ring_writes_one (by decide) hr⟩
  · exact ⟨ring_ok 2 (np := 1) (by decide), show 1 < 2 ^ 31 by decide, le_refl _, fun _ => hser, fun np h => by cases h⟩

/-- The well of the plain energy, generated on two ranks and run through the four sessions: no session stops, and the last file holds it. -/
example (new : Int → Int → ℚ × ℚ) (junk : Int → Grids (ℚ × ℚ)) :
    ∃ writes first last, generateFile fractions (ring 2) 1 2 (convexRanks fractions.cell ((ring 2).world 1 1 2) vanilla (fun _ => 1) (fun _ _ => 1) new) = .ok writes ∧
      (∀ W, W.Perm writes → ∀ i, written W i = first[i]?) ∧ Sittings fractions vanilla ⟨1, by decide⟩ (fun n => (n.1 : ℚ)) above 100 (four junk) first last ∧
      Denotes fractions (ring 2) (fun _ => (1, 0)) last := by
  have hs := ring_serial
  have hg : Nonneg ((ring 2).serial 1) := fun j hj => by
    obtain rfl : j = 0 := by change j < 1 at hj; omega
    exact le_refl _
  have hok := ring_ok 2 (np := 2) (by decide)
  have hone : (fun _ : Nat => (((⟨1, by decide⟩ : { n : Int // -2 ^ 31 ≤ n ∧ n < 2 ^ 31 }).1 : ℚ))) = fun _ => 1 := by funext _; norm_num
  -- the generated field is the well
  have hwell : ∀ a : Int → ℚ × ℚ, HasPotential vanilla ((ring 2).serial 1) (fun _ => 1) a →
      (∀ r, IsRank 2 r → ∀ i, 0 ≤ i → i < (((ring 2).world 1 1 2).shape r).nodes → (cellAt ((ring 2).serial 1) a ((((ring 2).world 1 1 2).shape r).position i)).1 = 1) →
      (∀ n, 0 ≤ n → n < ((ring 2).serial 1).nodes → a n = (1, 0)) ∧ ∀ ns, calls vanilla ((ring 2).serial 1) (fun _ => 1) above 100 ns a = .ok a := by
    intro a hp hf
    have h1 : ∀ n, 0 ≤ n → n < ((ring 2).serial 1).nodes → (a n).1 = 1 := by
      intro n h0 h1
      have hn := Shape.position_isNode hs.wf h0 h1
      obtain ⟨r, hr, hrn⟩ := owner hok (y := ((ring 2).serial 1).position n) hn
      obtain ⟨i, ⟨i0, i1, hi⟩, -⟩ := Shape.position_surj (shape_wf hok hr) hrn
      have h := hf r hr i i0 i1
      unfold cellAt at h
      rw [rawOffset_congr (g := (ring 2).serial 1) hi, (atNode_raw (bd := .serial) hs.wf (fun _ => hs.ghosts) h0 h1).symm] at h
      exact h
    have hc : ∀ n, 0 ≤ n → n < ((ring 2).serial 1).nodes → a n = (1, 0) := by
      intro n n0 n1
      refine Prod.ext (h1 n n0 n1) ?_
      rw [hp n n0 n1, h1 n n0 n1, GenerateConvex.lap_congr hs _ n0 n1 (v := fun _ => 1) h1]
      norm_num [lap, vanilla]
    refine ⟨hc, calls_rest hs hg vanilla_nonlinear (by norm_num [vanilla]) (by norm_num [vanilla]) (vanilla_solvable _) above_root (by decide) fun n n0 n1 => ?_⟩
    unfold r1 r2
    rw [GenerateConvex.lap_congr hs _ n0 n1 (u := fun m => (a m).2) (v := fun _ => 0) (fun q q0 q1 => by rw [hc q q0 q1]), GenerateConvex.lap_congr hs _ n0 n1 (u := fun m => (a m).1) (v := fun _ => 1)
      (fun q q0 q1 => by rw [hc q q0 q1]), hc n n0 n1]
    constructor <;> norm_num [lap, vanilla]
  have hat : ∀ a : Int → ℚ × ℚ, (∀ n, 0 ≤ n → n < ((ring 2).serial 1).nodes → a n = (1, 0)) → ∀ x, ((ring 2).serial 1).IsNode x → cellAt ((ring 2).serial 1) a x = (1, 0) := fun a h x hx =>
    h _ (position_rawOffset hs hx).1 (position_rawOffset hs hx).2.1
  obtain ⟨writes, e, first, a, h1, h2, h3, h4⟩ := whole (P := fun v => v = (1, 0)) (conv := fun n => (n.1 : ℚ)) (maxIter := 100) (delta := ⟨1, by decide⟩) fractions_good (ring_good rfl ⟨by decide, by decide⟩ rfl)
    vanilla_nonlinear rfl (vanilla_solvable _) above_root hs
    (fun j hj => hg j hj) (fun j hj _ => by
      obtain rfl : j = 0 := by change j < 1 at hj; omega
      exact ⟨512, rfl⟩) hok (by decide) (fun r hr => ring_writes_one (by decide) hr) (le_refl _) (fun _ _ => 1) new (four_ready junk) (fun a hp hf => by
        rw [hone] at hp ⊢
        obtain ⟨w1, w2⟩ := hwell a hp hf
        refine ⟨hat a w1, fun k _ _ b hb => ?_⟩
        obtain rfl : a = b := Outcome.ok.inj ((w2 _).symm.trans hb)
        exact hat a w1)
  rw [hone] at e h3 h4
  obtain ⟨w1, w2⟩ := hwell a h3 h2
  rcases h4 with ⟨h, -⟩ | ⟨l, h, -, -, ⟨last, hl⟩, hall, -⟩
  · cases (w2 _).symm.trans h
  · have hb := hall last hl
    rw [← Outcome.ok.inj ((w2 _).symm.trans h)] at hb
    exact ⟨writes, first, last, e, h1, hl, hb.congr (hat a w1)⟩

/-- With one iteration allowed no session that makes a step leaves a file: it stops, serial or on four ranks, whatever the file holds. -/
example (junk : Int → Grids (ℚ × ℚ)) (n : Nat) (ranks : Option Nat) (hr : ranks = none ∨ ranks = some 4) {a : Int → ℚ × ℚ} {file : List Byte}
    (hF : Denotes fractions (ring 2) (cellAt ((ring 2).serial 1) a) file) :
    Stops fractions vanilla ⟨1, by decide⟩ (fun n => (n.1 : ℚ)) above 1 ⟨ranks, 1, n + 1, junk⟩ file := by
  have hs := ring_serial
  have hready : Ready fractions (ring 2) (fun v => v = (1, 0)) ⟨ranks, 1, n + 1, junk⟩ := by
    rcases hr with rfl | rfl
    · have h := four_ready junk ⟨none, 1, 7, junk⟩ (by simp [four])
      exact ⟨h.ok, h.count, h.ghosts, h.serialFits, h.fits⟩
    · have h := four_ready junk ⟨some 4, 1, 3, junk⟩ (by simp [four])
      exact ⟨h.ok, h.count, h.ghosts, h.serialFits, h.fits⟩
  have hstop : ∀ a : Int → ℚ × ℚ, update vanilla ((ring 2).serial 1) (fun _ => (((⟨1, by decide⟩ : { n : Int // -2 ^ 31 ≤ n ∧ n < 2 ^ 31 }).1 : ℚ))) above 1 (n + 1) (a, a) = .abort (-1) := fun a => by
    unfold ConvexSplit.update
    rw [last_iteration_wasted hs vanilla_nonlinear (vanilla_solvable _)]
    rfl
  have h := sitting_step (P := fun v => v = (1, 0)) (delta := ⟨1, by decide⟩) fractions_good (ring_good rfl ⟨by decide, by decide⟩ rfl) vanilla rfl (fun n => (n.1 : ℚ)) above 1
    (fun j hj => by
      obtain rfl : j = 0 := by change j < 1 at hj; omega
      exact le_refl _)
    (fun j hj _ => by
      obtain rfl : j = 0 := by change j < 1 at hj; omega
      exact ⟨512, rfl⟩) hF hready (a := a) (fun _ _ => rfl)
    (fun s e => by cases (hstop _).symm.trans e)
  rcases h with ⟨s, e, -⟩ | ⟨-, h, -⟩
  · cases (hstop _).symm.trans e
  · exact h

end MMSP.ConvexRestart
