import Verif.GenerateRanks
import Verif.GenerateProps
/-!
# Property C104: initial conditions on several ranks
-/

namespace MMSP.GenerateRanks

open Generate (cube inside quarter nParticles mem_cube)
open DensePF (pass)
open Ghost FileIO ParallelRun Sessions

variable {V : Type} {g : Shape}

/-! ## Specification -/

/-- A rank's part of a periodic grid, with at least one layer of ghosts. -/
structure Plain (g : Shape) : Prop where
  wf : g.Wf
  ghosts : 1 ≤ g.ghosts
  faces : ∀ j, j < g.dim → (g.b0 j = .periodic ∨ g.b0 j = .parallel) ∧ (g.b1 j = .periodic ∨ g.b1 j = .parallel)

/-- The centre of particle `j` of the rank with grid `g`. -/
def centre (g : Shape) (rand : Nat → Int) (j : Nat) : Nat → Int := g.position (rand j % g.nodes)

/-- Point `x` is at most one step from the centre of one of the first `n` particles of the rank with grid `g`, coordinates taken as they are (nothing is periodic). -/
def Marked (g : Shape) (rand : Nat → Int) (n : Nat) (x : Nat → Int) : Prop := ∃ j < n, Near g.dim 1 (centre g rand j) x

theorem nodes_pos (h : g.Wf) : 0 < g.nodes := by
  rw [Shape.nodes_eq h]
  exact Finset.prod_pos fun j hj => by have := h.side j (Finset.mem_range.1 hj); omega

theorem centre_node (h : g.Wf) (rand : Nat → Int) (j : Nat) : g.IsNode (centre g rand j) :=
  Shape.position_isNode h (Int.emod_nonneg _ (nodes_pos h).ne') (Int.emod_lt_of_pos _ (nodes_pos h))

/-! ## The passes -/

/-- In an MPI build a coordinate beyond a periodic or parallel face stays as it is. -/
theorem atVec_plain (h : Plain g) (p : Nat → Int) : g.atVec .mpi p = g.rawOffset p := by
  refine Shape.atVec_eq_raw .mpi fun j hj => ?_
  obtain ⟨h0, h1⟩ := h.faces j hj
  unfold checkBoundary
  rcases h0 with h0 | h0 <;> rcases h1 with h1 | h1 <;> rw [h0, h1] <;> simp

theorem plain_cell (h : Plain g) {x p : Nat → Int} (hx : g.IsNode x) (hp : Near g.dim 1 x p) : g.IsCell p := by
  intro j hj
  have a := hx j hj
  have b := hp j hj
  have := h.ghosts
  show g.x0 j - g.ghosts ≤ p j ∧ p j < g.x1 j + g.ghosts
  omega

theorem near_offset {d : Nat} {x p : Nat → Int} : Near d 1 x p ↔ ∀ k, k < d → ∃ o ∈ [(-1 : Int), 0, 1], p k = x k + o := by
  refine forall₂_congr fun k _ => ?_
  constructor
  · intro h
    refine ⟨p k - x k, ?_, by omega⟩
    have : p k - x k = -1 ∨ p k - x k = 0 ∨ p k - x k = 1 := by omega
    simpa using this
  · rintro ⟨o, ho, e⟩
    simp only [List.mem_cons, List.not_mem_nil, or_false] at ho
    omega

/-- The cells visited for a particle are those at most one step from its centre, ghost cells included. -/
theorem cube_cells (h : Plain g) {c : Nat → Int} (hc : g.IsNode c) {x : Nat → Int} (hx : g.IsCell x) :
    g.rawOffset x ∈ (cube c g.dim).map (g.atVec .mpi) ↔ Near g.dim 1 c x := by
  rw [List.mem_map]
  constructor
  · rintro ⟨p, hp, e⟩
    obtain ⟨h1, -⟩ := (mem_cube _ _ _).1 hp
    rw [atVec_plain h] at e
    have hn := near_offset.2 h1
    have := Shape.rawOffset_inj (plain_cell h hc hn) hx e
    intro k hk
    rw [← this k hk]
    exact hn k hk
  · intro hn
    refine ⟨fun k => if k < g.dim then x k else c k, (mem_cube _ _ _).2 ⟨fun k hk => ?_, fun k hk => if_neg (by omega)⟩, ?_⟩
    · rw [if_pos hk]
      exact near_offset.1 hn k hk
    · rw [atVec_plain h]
      exact rawOffset_congr fun k hk => if_pos hk

/-- Marking a list of cells. -/
theorem mark_cells (mark : V → Outcome V) (Q R : V → Prop) (hm : ∀ c, Q c → ∃ w, mark c = .ok w ∧ Q w ∧ R w) {X : Type} (f : X → Int) :
    ∀ (ps : List X) (data : Int → V), (∀ p ∈ ps, 0 ≤ f p ∧ f p < g.cells) → (∀ q, 0 ≤ q → q < g.cells → Q (data q)) →
    ∃ out, ps.foldlM (fun data p => (deref g data (f p)).bind fun c => (mark c).bind fun c => store g data (f p) c) data = Outcome.ok out ∧
      (∀ q, 0 ≤ q → q < g.cells → Q (out q)) ∧ (∀ q ∈ ps.map f, R (out q)) ∧ ∀ q ∉ ps.map f, out q = data q := by
  intro ps
  induction ps with
  | nil => intro data _ hQ; exact ⟨data, rfl, hQ, fun q hq => (by cases hq), fun _ _ => rfl⟩
  | cons p ps ih =>
    intro data hp hQ
    obtain ⟨p0, p1⟩ := hp p (List.mem_cons_self ..)
    obtain ⟨w, e, hw, hr⟩ := hm _ (hQ _ p0 p1)
    obtain ⟨out, eo, h1, h2, h3⟩ := ih (Function.update data (f p) w) (fun p hp' => hp p (List.mem_cons_of_mem _ hp')) (fun q q0 q1 => by
      by_cases e : q = f p
      · rw [e, Function.update_self]; exact hw
      · rw [Function.update_of_ne e]; exact hQ q q0 q1)
    refine ⟨out, ?_, h1, fun q hq => ?_, fun q hq => ?_⟩
    · rw [List.foldlM_cons]
      have e1 : deref g data (f p) = .ok (data (f p)) := if_pos ⟨p0, p1⟩
      have e2 : store g data (f p) w = .ok (Function.update data (f p) w) := if_pos ⟨p0, p1⟩
      rw [e1, Outcome.ok_bind, e, Outcome.ok_bind, e2]
      exact eo
    · by_cases hin : q ∈ ps.map f
      · exact h2 q hin
      · rw [h3 q hin]
        rw [List.map_cons, List.mem_cons] at hq
        rcases hq with rfl | hq
        · rw [Function.update_self]; exact hr
        · exact absurd hq hin
    · rw [List.map_cons, List.mem_cons, not_or] at hq
      rw [h3 q hq.2, Function.update_of_ne hq.1]

/-- The particles of one rank. -/
theorem spots_spec (h : Plain g) (mark : V → Outcome V) (Q R : V → Prop) (hm : ∀ c, Q c → ∃ w, mark c = .ok w ∧ Q w ∧ R w) {rand : Nat → Int} (hr : ∀ j, 0 ≤ rand j) (n : Nat)
    (data : Int → V) (hQ : ∀ q, 0 ≤ q → q < g.cells → Q (data q)) :
    ∃ out, spots g mark rand n data = .ok out ∧ (∀ q, 0 ≤ q → q < g.cells → Q (out q)) ∧
      ∀ x, g.IsCell x → (Marked g rand n x → R (cellAt g out x)) ∧ (¬ Marked g rand n x → cellAt g out x = cellAt g data x) := by
  induction n with
  | zero => exact ⟨data, rfl, hQ, fun x _ => ⟨fun ⟨j, hj, _⟩ => absurd hj (Nat.not_lt_zero j), fun _ => rfl⟩⟩
  | succ n ih =>
    obtain ⟨mid, em, hq, hmid⟩ := ih
    have et : Int.tmod (rand n) g.nodes = rand n % g.nodes := Int.tmod_eq_emod_of_nonneg (hr n)
    have hc : g.IsNode (centre g rand n) := centre_node h.wf rand n
    obtain ⟨out, eo, h1, h2, h3⟩ := mark_cells (g := g) mark Q R hm (g.atVec .mpi) (cube (centre g rand n) g.dim) mid
      (fun p hp => by
        rw [atVec_plain h]
        exact Shape.rawOffset_bounds h.wf (plain_cell h hc (near_offset.2 ((mem_cube _ _ _).1 hp).1))) hq
    refine ⟨out, ?_, h1, fun x hx => ⟨?_, ?_⟩⟩
    · unfold spots at em ⊢
      rw [List.range_succ, List.foldlM_append, em]
      simp only [Outcome.bind_eq, Outcome.ok_bind, List.foldlM_cons, List.foldlM_nil, Outcome.pure_eq]
      unfold spot
      unfold centre at eo
      rw [et, eo]
      rfl
    · rintro ⟨j, hj, hn⟩
      by_cases hin : g.rawOffset x ∈ (cube (centre g rand n) g.dim).map (g.atVec .mpi)
      · exact h2 _ hin
      · unfold cellAt
        rw [h3 _ hin]
        have : j ≠ n := by
          rintro rfl
          exact hin ((cube_cells h hc hx).2 hn)
        exact (hmid x hx).1 ⟨j, by omega, hn⟩
    · intro hn
      have hin : g.rawOffset x ∉ (cube (centre g rand n) g.dim).map (g.atVec .mpi) := fun hin => hn ⟨n, by omega, (cube_cells h hc hx).1 hin⟩
      unfold cellAt
      rw [h3 _ hin]
      exact (hmid x hx).2 fun ⟨j, hj, hj'⟩ => hn ⟨j, by omega, hj'⟩

/-- The loop over the nodes, in either build: every node gets its value, other cells are left alone. -/
theorem nodewise_spec {bd : Build} (hg : g.Wf) (hser : bd = .serial → g.ghosts = 0) {node : (Nat → Int) → V → Outcome V} {Q : V → Prop} {val : (Nat → Int) → V → V}
    (hv : ∀ x y c, g.SamePoint x y → val x c = val y c) (hn : ∀ x c, Q c → node x c = .ok (val x c) ∧ Q (val x c)) (new : Int → V) (hQ : ∀ q, 0 ≤ q → q < g.cells → Q (new q)) :
    ∃ out, nodewise bd g node new = .ok out ∧ (∀ q, 0 ≤ q → q < g.cells → Q (out q)) ∧ ∀ x, g.IsNode x → cellAt g out x = val x (cellAt g new x) := by
  have hnn := (nodes_pos hg).le
  have key : ∀ k : Nat, (k : Int) ≤ g.nodes → ∃ out, (List.range k).foldlM (fun out (i : Nat) =>
        (deref g out (g.atNode bd i)).bind fun z => (node (g.position i) z).bind fun v => store g out (g.atNode bd i) v) new = .ok out ∧ (∀ q, 0 ≤ q → q < g.cells → Q (out q)) ∧
      (∀ i : Int, 0 ≤ i → i < k → out (g.atNode bd i) = val (g.position i) (new (g.atNode bd i))) ∧ ∀ p, (∀ i : Int, 0 ≤ i → i < k → g.atNode bd i ≠ p) → out p = new p := by
    intro k
    induction k with
    | zero => intro _; exact ⟨new, rfl, hQ, fun i h0 h1 => absurd h1 (by omega), fun _ _ => rfl⟩
    | succ k ih =>
      intro hk
      obtain ⟨out, e, hq, h1, h2⟩ := ih (by omega)
      have hb : 0 ≤ g.atNode bd k ∧ g.atNode bd k < g.cells := by
        rw [atNode_raw hg hser (by omega) (by omega)]
        exact Shape.rawOffset_bounds hg (isCell_of_isNode hg.ghosts (Shape.position_isNode hg (by omega) (by omega)))
      have ho : out (g.atNode bd k) = new (g.atNode bd k) := h2 _ fun i h0 h1 e => by
        have := atNode_inj hg hser h0 (by omega) (by omega) (by omega) e
        omega
      obtain ⟨n1, n2⟩ := hn (g.position k) (new (g.atNode bd k)) (hQ _ hb.1 hb.2)
      have hde : deref g out (g.atNode bd k) = .ok (new (g.atNode bd k)) := by unfold deref; rw [if_pos hb, ho]
      have hst : ∀ v, store g out (g.atNode bd k) v = .ok (Function.update out (g.atNode bd k) v) := fun v => by unfold store; exact if_pos hb
      refine ⟨Function.update out (g.atNode bd k) (val (g.position k) (new (g.atNode bd k))), ?_, fun q q0 q1 => ?_, fun i h0 h1' => ?_, fun p hp => ?_⟩
      · rw [List.range_succ, List.foldlM_append, e]
        simp only [List.foldlM_cons, List.foldlM_nil, Outcome.bind_eq, Outcome.ok_bind, Outcome.pure_eq, hde, n1, hst]
      · by_cases e : q = g.atNode bd k
        · rw [e, Function.update_self]; exact n2
        · rw [Function.update_of_ne e]; exact hq q q0 q1
      · by_cases ei : i = k
        · subst ei; rw [Function.update_self]
        · rw [Function.update_of_ne fun e => ei (atNode_inj hg hser h0 (by omega) (by omega) (by omega) e)]
          exact h1 i h0 (by omega)
      · rw [Function.update_of_ne fun e => hp k (by omega) (by omega) e.symm]
        exact h2 p fun i h0 h1 => hp i h0 (by omega)
  obtain ⟨out, e, hq, h1, -⟩ := key g.nodes.toNat (by omega)
  refine ⟨out, e, hq, fun x hx => ?_⟩
  obtain ⟨i, ⟨h0, h1', hs⟩, _⟩ := Shape.position_surj hg hx
  unfold cellAt
  rw [← rawOffset_congr hs, ← atNode_raw hg hser h0 h1', h1 i h0 (by omega)]
  exact hv _ _ _ hs

/-- **C104.** The Zener examples on one rank: no access leaves the memory of the rank; a node becomes a particle exactly if it is within one step of a centre *of the same rank*. -/
theorem zener_spec (h : Plain g) {node : (Nat → Int) → V → Outcome V} {mark : V → Outcome V} {Q R : V → Prop} {val : (Nat → Int) → V → V} (hv : ∀ x y c, g.SamePoint x y → val x c = val y c)
    (hn : ∀ x c, Q c → node x c = .ok (val x c) ∧ Q (val x c)) (hm : ∀ c, Q c → ∃ w, mark c = .ok w ∧ Q w ∧ R w) {rand : Nat → Int} (hr : ∀ j, 0 ≤ rand j) (new : Int → V)
    (hQ : ∀ q, 0 ≤ q → q < g.cells → Q (new q)) :
    ∃ out, zener g node mark rand new = .ok out ∧ (∀ q, 0 ≤ q → q < g.cells → Q (out q)) ∧ ∀ x, g.IsNode x →
      (Marked g rand (nParticles g.nodes) x → R (cellAt g out x)) ∧ (¬ Marked g rand (nParticles g.nodes) x → cellAt g out x = val x (cellAt g new x)) := by
  obtain ⟨mid, e, hq, hmid⟩ := nodewise_spec (bd := .mpi) h.wf (fun e => by cases e) hv hn new hQ
  obtain ⟨out, e', hq', ho⟩ := spots_spec h mark Q R hm hr (nParticles g.nodes) mid hq
  refine ⟨out, ?_, hq', fun x hx => ?_⟩
  · unfold zener
    unfold nodewise at e
    rw [e, Outcome.ok_bind, e']
  · obtain ⟨a, b⟩ := ho x (isCell_of_isNode h.wf.ghosts hx)
    exact ⟨a, fun hn => by rw [b hn, hmid x hx]⟩

/-! ## The file -/

section
variable {T D : Type}

/-- Every node belongs to one rank, so the arrays of the ranks make up one field. -/
theorem glue {w : World} {np : Nat} (h : w.Ok np) (data : Int → Int → T) : ∃ F : (Nat → Int) → T, ∀ r, IsRank np r → ∀ x, (w.shape r).IsNode x → cellAt (w.shape r) (data r) x = F x := by
  classical
  refine ⟨fun x => if hx : ∃ r, IsRank np r ∧ (w.shape r).IsNode x then cellAt (w.shape hx.choose) (data hx.choose) x else data 0 0, fun r hr x hx => ?_⟩
  have hex : ∃ r, IsRank np r ∧ (w.shape r).IsNode x := ⟨r, hr, hx⟩
  have hg : w.serial.IsNode x := by
    intro j hj
    have a := rank_room h hr hj
    have b := hx j hj
    have e0 : w.serial.x0 j = w.g0 j := rfl
    have e1 : w.serial.x1 j = w.g1 j := rfl
    omega
  obtain ⟨s, -, hu⟩ := Decomp.partition (np := np) h.setup.grid h.setup.box (x := x) hg
  have e1 := hu r hr.1 hr.2 hx
  have e2 := hu _ hex.choose_spec.1.1 hex.choose_spec.1.2 hex.choose_spec.2
  beta_reduce
  rw [dif_pos hex, e2, ← e1]

/-- Arrays that can be written: block sizes fit `unsigned long` and the `int` of MPI, and compression does not give a different block of the same length. -/
def Writes (fmt : Format T D) (P : T → Prop) (g : Shape) : Prop :=
  Fits fmt P g ∧ ∀ data b, (∀ o, 0 ≤ o → o < g.cells → P (data o)) → writeBuffer fmt.comp fmt.cell g data = .ok b → b.length < 2 ^ 31 - 1

/-- **C104.** The ranks' arrays are written to one file, which denotes the field they make up, whatever the order of the writes. -/
theorem generate_denotes {fmt : Format T D} {m : Meta D} {P : T → Prop} (hfmt : fmt.Good P) (hm : m.Good fmt) {ghosts : Int} {np : Nat} (hok : (m.world fmt.d ghosts np).Ok np) (hnp : np < 2 ^ 31)
    (hw : ∀ r, IsRank np r → Writes fmt P ((m.world fmt.d ghosts np).shape r)) {gen : Int → Outcome (Int → T)} {data : Int → Int → T} (hgen : ∀ r, IsRank np r → gen r = .ok (data r))
    (hP : ∀ r, IsRank np r → ∀ o, 0 ≤ o → o < ((m.world fmt.d ghosts np).shape r).cells → P (data r o)) {F : (Nat → Int) → T}
    (hF : ∀ r, IsRank np r → ∀ x, ((m.world fmt.d ghosts np).shape r).IsNode x → cellAt ((m.world fmt.d ghosts np).shape r) (data r) x = F x) :
    ∃ writes, generateFile fmt m ghosts np gen = .ok writes ∧ ∃ out, (∀ W, W.Perm writes → ∀ i, written W i = out[i]?) ∧ Denotes fmt m F out := by
  have hrun : Run fmt.cell fmt.d m.g0 m.g1 m.B0 m.B1 F (writers np fmt.d m.g0 m.g1 ghosts (Decomp.choose np fmt.d m.g0 m.g1) m.B0 m.B1 data) :=
    writers_run hnp hok.setup.grid hok.setup.box hok.setup.ghosts (fun r h0 h1 x hx => hF r ⟨h0, h1⟩ x hx) (fun r h0 h1 o ho0 ho1 => hfmt.valid _ (hP r ⟨h0, h1⟩ o ho0 ho1))
      (fun r h0 h1 => (hw r ⟨h0, h1⟩).1.small _ (hP r ⟨h0, h1⟩))
  have hblock : ∀ n : Nat, ∃ b, n < np → writeBuffer fmt.comp fmt.cell ((m.world fmt.d ghosts np).shape n) (data n) = .ok b := by
    intro n
    by_cases hn : n < np
    · have hw : (⟨(m.world fmt.d ghosts np).shape n, data n⟩ : Reader T) ∈ writers np fmt.d m.g0 m.g1 ghosts (Decomp.choose np fmt.d m.g0 m.g1) m.B0 m.B1 data :=
        mem_writers.mpr ⟨n, ⟨by omega, by omega⟩, rfl⟩
      have hp := hrun.part _ hw
      obtain ⟨_, _, _, _, _, _, e⟩ := writeBuffer_eq hfmt.cell hfmt.zlib (d := fmt.d) (w := ⟨_, data n⟩) ⟨hp.dim, (fun j hj => by
        have hl := hp.inside j hj
        have hi := hm.ints j hj
        exact ⟨⟨le_trans hi.1.1 hl.1.1, lt_of_le_of_lt hl.1.2 hi.2.2⟩, ⟨le_trans hi.1.1 hl.2.1, lt_of_le_of_lt hl.2.2 hi.2.2⟩⟩),
        hm.dim, hp.ghosts, hrun.valid _ hw, hrun.small _ hw⟩
      exact ⟨_, fun _ => e⟩
    · exact ⟨[], fun h => absurd h hn⟩
  obtain ⟨B, hB⟩ := Classical.axiomOfChoice hblock
  have hforall : List.Forall₂ (fun w b => writeBuffer fmt.comp fmt.cell w.shape w.data = .ok b)
      (writers np fmt.d m.g0 m.g1 ghosts (Decomp.choose np fmt.d m.g0 m.g1) m.B0 m.B1 data) ((List.range np).map B) := by
    unfold writers
    rw [List.forall₂_map_left_iff, List.forall₂_map_right_iff, List.forall₂_same]
    intro n hn
    exact hB n (List.mem_range.mp hn)
  obtain ⟨out, writes, o1, o2, o3⟩ := standard_output_bytes (dec := fmt.dec) (nm := fmt.name) (d := fmt.d) (fields := m.fields)
    (g0 := m.g0) (g1 := m.g1) (dx := m.spacing fmt.dx0) hforall (by
      intro b hb
      obtain ⟨n, hn, rfl⟩ := List.mem_map.mp hb
      have hn' := List.mem_range.mp hn
      exact (hw n ⟨by omega, by omega⟩).2 _ _ (hP n ⟨by omega, by omega⟩) (hB n hn'))
  obtain ⟨out', p1, p2⟩ := output_denotes fmt hfmt.cell hfmt.zlib hm.dim hm.dimInt hfmt.name hm.fields hm.box hm.ints
    (m.spacing fmt.dx0) hrun (by
      intro w hw'
      obtain ⟨q, hq, rfl⟩ := mem_writers.mp hw'
      exact (hw q hq).1.shrinks _ (hP q hq))
  obtain rfl : out = out' := Outcome.ok.inj (o1.symm.trans p1)
  rw [Meta.of_self hm] at p2
  refine ⟨writes, ?_, out, o3, p2⟩
  unfold generateFile
  rw [gather_eq (g := B), Outcome.ok_bind]
  · exact o2
  · intro n hn
    rw [hgen n ⟨by omega, by omega⟩, Outcome.ok_bind]
    exact hB n hn

/-- **C104.** The same for the serial program. -/
theorem serial_denotes {fmt : Format T D} {m : Meta D} {P : T → Prop} (hfmt : fmt.Good P) (hm : m.Good fmt) (hw : Fits fmt P (m.serial fmt.d)) {gen : Outcome (Int → T)} {data : Int → T}
    (hgen : gen = .ok data) (hP : ∀ o, 0 ≤ o → o < (m.serial fmt.d).cells → P (data o)) :
    ∃ out, generateSerial fmt m gen = .ok out ∧ Denotes fmt m (cellAt (m.serial fmt.d) data) out := by
  have hrun := serial_run (c := fmt.cell) hm.box m.B0 m.B1 (data := data) (fun o h0 h1 => hfmt.valid _ (hP o h0 h1)) (hw.small _ hP)
  obtain ⟨out, p1, p2⟩ := output_denotes fmt hfmt.cell hfmt.zlib hm.dim hm.dimInt hfmt.name hm.fields hm.box hm.ints (m.spacing fmt.dx0) hrun (by
    intro w hw'
    obtain rfl := List.mem_singleton.mp hw'
    exact hw.shrinks _ hP)
  rw [Meta.of_self hm] at p2
  refine ⟨out, ?_, p2⟩
  subst hgen
  unfold generateSerial
  rw [Outcome.ok_bind]
  exact p1

end

/-! ## Zener pinning on all ranks -/

/-- All outer faces are periodic, as in a new grid (`include/MMSP.grid.cpp` 78-82). -/
def Periodic (w : World) : Prop := ∀ j, j < w.d → w.B0 j = .periodic ∧ w.B1 j = .periodic

theorem plain_shape {w : World} {np : Nat} (h : w.Ok np) (hp : Periodic w) (hgh : 1 ≤ w.ghosts) {r : Int} (hr : IsRank np r) : Plain (w.shape r) := by
  refine ⟨shape_wf h hr, hgh, fun j hj => ⟨?_, ?_⟩⟩
  · show (if (w.shape r).x0 j ≠ w.g0 j then BC.parallel else w.B0 j) = _ ∨ (if (w.shape r).x0 j ≠ w.g0 j then BC.parallel else w.B0 j) = _
    rw [(hp j hj).1]
    by_cases e : (w.shape r).x0 j ≠ w.g0 j
    · exact Or.inr (if_pos e)
    · exact Or.inl (if_neg e)
  · show (if (w.shape r).x1 j ≠ w.g1 j then BC.parallel else w.B1 j) = _ ∨ (if (w.shape r).x1 j ≠ w.g1 j then BC.parallel else w.B1 j) = _
    rw [(hp j hj).2]
    by_cases e : (w.shape r).x1 j ≠ w.g1 j
    · exact Or.inr (if_pos e)
    · exact Or.inl (if_neg e)

section
variable {T D : Type} {fmt : Format T D} {m : Meta D} {P : T → Prop} (hfmt : fmt.Good P) (hm : m.Good fmt) {ghosts : Int} {np : Nat} (hok : (m.world fmt.d ghosts np).Ok np)
  (hnp : np < 2 ^ 31) (hw : ∀ r, IsRank np r → Writes fmt P ((m.world fmt.d ghosts np).shape r)) (hper : Periodic (m.world fmt.d ghosts np)) (hgh : 1 ≤ ghosts)
include hfmt hm hok hnp hw hper hgh

/-- **C104.** What the file of a Zener example contains when it was generated on any number of ranks. -/
theorem zener_file {node : (Nat → Int) → T → Outcome T} {mark : T → Outcome T} {R : T → Prop} {val : (Nat → Int) → T → T}
    (hv : ∀ x y c, (∀ j, j < fmt.d → x j = y j) → val x c = val y c) (hn : ∀ x c, P c → node x c = .ok (val x c) ∧ P (val x c)) (hmark : ∀ c, P c → ∃ v, mark c = .ok v ∧ P v ∧ R v)
    {rand : Int → Nat → Int} (hr : ∀ r j, 0 ≤ rand r j) {new : Int → Int → T} (hnew : ∀ r o, P (new r o)) :
    ∃ writes, generateFile fmt m ghosts np (fun r => zener ((m.world fmt.d ghosts np).shape r) node mark (rand r) (new r)) = .ok writes ∧
      ∃ out F, (∀ W, W.Perm writes → ∀ i, written W i = out[i]?) ∧ Denotes fmt m F out ∧ ∀ r, IsRank np r → let g := (m.world fmt.d ghosts np).shape r; ∀ x, g.IsNode x →
        (Marked g (rand r) (nParticles g.nodes) x → R (F x)) ∧ (¬ Marked g (rand r) (nParticles g.nodes) x → F x = val x (cellAt g (new r) x)) := by
  have hz : ∀ r, ∃ out, IsRank np r → let g := (m.world fmt.d ghosts np).shape r; zener g node mark (rand r) (new r) = .ok out ∧ (∀ q, 0 ≤ q → q < g.cells → P (out q)) ∧ ∀ x, g.IsNode x →
      (Marked g (rand r) (nParticles g.nodes) x → R (cellAt g out x)) ∧ (¬ Marked g (rand r) (nParticles g.nodes) x → cellAt g out x = val x (cellAt g (new r) x)) := by
    intro r
    by_cases hr' : IsRank np r
    · obtain ⟨out, h⟩ := zener_spec (plain_shape hok hper hgh hr') hv hn hmark (hr r) (new r) fun o _ _ => hnew r o
      exact ⟨out, fun _ => h⟩
    · exact ⟨new r, fun h => absurd h hr'⟩
  choose data hdata using hz
  obtain ⟨F, hF⟩ := glue hok data
  obtain ⟨writes, e, out, ho, hd⟩ := generate_denotes hfmt hm hok hnp hw (gen := fun r => zener ((m.world fmt.d ghosts np).shape r) node mark (rand r) (new r)) (fun r hr => (hdata r hr).1)
    (fun r hr => (hdata r hr).2.1) hF
  refine ⟨writes, e, out, F, ho, hd, fun r hr x hx => ?_⟩
  have := (hdata r hr).2.2 x hx
  rw [hF r hr x hx] at this
  exact this

end

theorem inside_congr {d : Nat} (hd : 0 < d) {x y : Nat → Int} (h : ∀ j, j < d → x j = y j) : inside d x = inside d y := by
  unfold inside
  by_cases h1 : d = 1
  · rw [if_pos h1, if_pos h1, h 0 hd]
  · rw [if_neg h1, if_neg h1, h 0 hd, h 1 (by omega)]

section
variable {D : Type} {fmt : Format Int D} {m : Meta D} {P : Int → Prop} (hfmt : fmt.Good P) (hm : m.Good fmt) {ghosts : Int} {np : Nat} (hok : (m.world fmt.d ghosts np).Ok np)
  (hnp : np < 2 ^ 31) (hw : ∀ r, IsRank np r → Writes fmt P ((m.world fmt.d ghosts np).shape r)) (hper : Periodic (m.world fmt.d ghosts np)) (hgh : 1 ≤ ghosts)
include hfmt hm hok hnp hw hper hgh

/-- **C104.** Monte Carlo: the file holds state 0 at the nodes marked by their own rank, elsewhere the states 2 in the grains and 1 around them. -/
theorem monteCarlo_file (hP : P 0 ∧ P 1 ∧ P 2) {rand : Int → Nat → Int} (hr : ∀ r j, 0 ≤ rand r j) {new : Int → Int → Int} (hnew : ∀ r o, P (new r o)) :
    ∃ writes, generateFile fmt m ghosts np (fun r => zener ((m.world fmt.d ghosts np).shape r) (monteCarloNode fmt.d) (fun _ => .ok 0) (rand r) (new r)) = .ok writes ∧
      ∃ out F, (∀ W, W.Perm writes → ∀ i, written W i = out[i]?) ∧ Denotes fmt m F out ∧ ∀ r, IsRank np r → let g := (m.world fmt.d ghosts np).shape r; ∀ x, g.IsNode x →
        (Marked g (rand r) (nParticles g.nodes) x → F x = 0) ∧ (¬ Marked g (rand r) (nParticles g.nodes) x → F x = if inside fmt.d x then 2 else 1) :=
  zener_file hfmt hm hok hnp hw hper hgh (R := fun v => v = 0) (val := fun x _ => if inside fmt.d x then 2 else 1) (fun x y c h => by rw [inside_congr hm.dim h])
    (fun x c _ => ⟨rfl, by split_ifs; exacts [hP.2.2, hP.2.1]⟩) (fun _ _ => ⟨0, rfl, hP.1, rfl⟩) hr hnew

end

section
variable {α D : Type} [Zero α] [One α] {fmt : Format (List α) D} {m : Meta D} (hfmt : fmt.Good fun v => v.length = 3) (hm : m.Good fmt) {ghosts : Int} {np : Nat}
  (hok : (m.world fmt.d ghosts np).Ok np) (hnp : np < 2 ^ 31) (hw : ∀ r, IsRank np r → Writes fmt (fun v => v.length = 3) ((m.world fmt.d ghosts np).shape r))
  (hper : Periodic (m.world fmt.d ghosts np)) (hgh : 1 ≤ ghosts)
include hfmt hm hok hnp hw hper hgh

/-- **C104.** Dense phase fields: `(1,0,0)` at the nodes marked by their own rank, elsewhere `(0,0,1)` in the grains, and around them `(0,1,u)` with the uninitialised number `u`. -/
theorem dense_file {rand : Int → Nat → Int} (hr : ∀ r j, 0 ≤ rand r j) {new : Int → Int → List α} (hnew : ∀ r o, (new r o).length = 3) :
    ∃ writes, generateFile fmt m ghosts np (fun r => zener ((m.world fmt.d ghosts np).shape r) (denseNode fmt.d) denseMark (rand r) (new r)) = .ok writes ∧
      ∃ out F, (∀ W, W.Perm writes → ∀ i, written W i = out[i]?) ∧ Denotes fmt m F out ∧ ∀ r, IsRank np r → let g := (m.world fmt.d ghosts np).shape r; ∀ x, g.IsNode x →
        (Marked g (rand r) (nParticles g.nodes) x → F x = [1, 0, 0]) ∧
        (¬ Marked g (rand r) (nParticles g.nodes) x → F x = if inside fmt.d x then [0, 0, 1] else [0, 1, (cellAt g (new r) x).getD 2 0]) := by
  refine zener_file hfmt hm hok hnp hw hper hgh (R := fun v => v = [1, 0, 0]) (val := fun x c => if inside fmt.d x then [0, 0, 1] else [0, 1, c.getD 2 0]) (fun x y c h => by rw [inside_congr hm.dim h])
    (fun x c hc => ?_) (fun c hc => ?_) hr hnew
  · match c, hc with
    | [a, b, e], _ =>
      unfold denseNode
      cases inside fmt.d x <;> exact ⟨rfl, rfl⟩
  · match c, hc with
    | [a, b, e], _ => exact ⟨_, rfl, rfl, rfl⟩

end

theorem lists_update {α : Type} [Zero α] {I : Finset Int} {c : Sparse.Cell α} (h : Lists I c) {i : Int} (hi : i ∈ I) (f : α → α) : Lists I (Sparse.update c i f) := by
  refine ⟨h.1.update _ _, fun k hk => ?_⟩
  rw [Sparse.keys_update] at hk
  split_ifs at hk
  · exact h.2 k hk
  · rcases List.mem_append.1 hk with hk | hk
    · exact h.2 k hk
    · rw [List.mem_singleton.1 hk]; exact hi

section
variable {α D : Type} [Zero α] [One α] {fmt : Format (Sparse.Cell α) D} {m : Meta D} (hfmt : fmt.Good (Lists {0, 1, 2})) (hm : m.Good fmt) {ghosts : Int} {np : Nat}
  (hok : (m.world fmt.d ghosts np).Ok np) (hnp : np < 2 ^ 31) (hw : ∀ r, IsRank np r → Writes fmt (Lists {0, 1, 2}) ((m.world fmt.d ghosts np).shape r))
  (hper : Periodic (m.world fmt.d ghosts np)) (hgh : 1 ≤ ghosts)
include hfmt hm hok hnp hw hper hgh

/-- **C104.** Sparse phase fields: a single field is 1, number 0 at the nodes marked by their own rank, elsewhere 2 in the grains and 1 around them. -/
theorem sparse_file {rand : Int → Nat → Int} (hr : ∀ r j, 0 ≤ rand r j) :
    ∃ writes, generateFile fmt m ghosts np (fun r => zener ((m.world fmt.d ghosts np).shape r) (sparseNode fmt.d) Generate.markSparse (rand r) fun _ => []) = .ok writes ∧
      ∃ out F, (∀ W, W.Perm writes → ∀ i, written W i = out[i]?) ∧ Denotes fmt m F out ∧ ∀ r, IsRank np r → let g := (m.world fmt.d ghosts np).shape r; ∀ x, g.IsNode x →
        (Marked g (rand r) (nParticles g.nodes) x → ∀ k, Sparse.get (F x) k = if k = 0 then 1 else 0) ∧
        (¬ Marked g (rand r) (nParticles g.nodes) x → F x = [(if inside fmt.d x then 2 else 1, 1)]) := by
  refine zener_file hfmt hm hok hnp hw hper hgh (node := sparseNode fmt.d) (mark := Generate.markSparse) (R := fun v => ∀ k, Sparse.get v k = if k = 0 then 1 else 0)
    (val := fun x c => Sparse.update c (if inside fmt.d x then 2 else 1) fun _ => 1) (fun x y c h => by rw [inside_congr hm.dim h])
    (fun x c hc => ⟨rfl, lists_update hc (by split_ifs <;> decide) _⟩) (fun c hc => ?_) hr (new := fun _ _ => []) fun _ _ => ⟨by simp [Sparse.Ok, Sparse.keys], by simp [Sparse.keys]⟩
  refine ⟨_, rfl, lists_update (lists_update (lists_update hc (by decide) _) (by decide) _) (by decide) _, fun k => ?_⟩
  rw [Sparse.get_update, Sparse.get_update, Sparse.get_update]
  split_ifs <;> first | rfl | omega | skip
  refine Sparse.get_of_not_mem fun hk => ?_
  have := hc.2 k hk
  simp only [Finset.mem_insert, Finset.mem_singleton] at this
  omega

end

/-! ## Particles are cut at the borders of ranks -/

/-- Point `y` is at most one step from `c` in the periodic grid. -/
def Beside (w : World) (c y : Nat → Int) : Prop := ∀ k, k < w.d → ∃ o ∈ [(-1 : Int), 0, 1], (w.g1 k - w.g0 k) ∣ y k - (c k + o)

/-- **C104.** In an MPI build particles at the upper border of a rank on the first axis are cut, on any number of ranks (also on one, at the periodic border): for some random numbers, all
ranks have a neighbour of the centre of their first particle that no rank marks. In the serial program all these neighbours are marked (`Generate.zenerMC_spec` and the others). -/
theorem particles_cut {w : World} {np : Nat} (h : w.Ok np) (hside : ∀ r, IsRank np r → 3 ≤ (w.shape r).x1 0 - (w.shape r).x0 0) :
    ∃ rand : Int → Nat → Int, (∀ r j, 0 ≤ rand r j) ∧ ∀ r, IsRank np r → ∃ y, w.serial.IsNode y ∧ Beside w (centre (w.shape r) (rand r) 0) y ∧
      ∀ s, IsRank np s → (w.shape s).IsNode y → ∀ n, ¬ Marked (w.shape s) (rand s) n y := by
  have hd : 0 < w.d := h.setup.dim
  have hc : ∀ r, ∃ i : Int, 0 ≤ i ∧ (IsRank np r → i < (w.shape r).nodes ∧ ∀ k, k < w.d → (w.shape r).position i k = (w.shape r).x1 k - 1) := by
    intro r
    by_cases hr : IsRank np r
    · have wf := shape_wf h hr
      obtain ⟨i, ⟨h0, h1, hs⟩, -⟩ := Shape.position_surj wf (x := fun k => (w.shape r).x1 k - 1) fun k hk => by have := wf.side k hk; beta_reduce; omega
      exact ⟨i, h0, fun _ => ⟨h1, hs⟩⟩
    · exact ⟨0, le_rfl, fun h => absurd h hr⟩
  choose i i0 hi using hc
  have hcen : ∀ r, IsRank np r → ∀ j k, k < w.d → centre (w.shape r) (fun _ => i r) j k = (w.shape r).x1 k - 1 := by
    intro r hr j k hk
    unfold centre
    rw [Int.emod_eq_of_lt (i0 r) (hi r hr).1]
    exact (hi r hr).2 k hk
  have hlim : ∀ r, IsRank np r → (w.shape r).x0 0 = Decomp.cut (w.g0 0) (w.g1 0) (w.p 0) (Decomp.pos w.d w.p r 0) ∧ (w.shape r).x1 0 = Decomp.cut (w.g0 0) (w.g1 0) (w.p 0) (Decomp.pos w.d w.p r 0 + 1) ∧
      0 ≤ Decomp.pos w.d w.p r 0 ∧ Decomp.pos w.d w.p r 0 < w.p 0 := by
    intro r hr
    have e := Decomp.lim_eq (np := np) h.setup.grid h.setup.box hr.1 hr.2 hd
    exact ⟨congrArg Prod.fst e, congrArg Prod.snd e, Decomp.pos_bounds h.setup.grid hr.1 hr.2 hd⟩
  have hp0 := h.setup.grid.1 0 hd
  have z : Decomp.cut (w.g0 0) (w.g1 0) (w.p 0) 0 = w.g0 0 := Decomp.cut_zero hp0
  have l : Decomp.cut (w.g0 0) (w.g1 0) (w.p 0) (w.p 0) = w.g1 0 := Decomp.cut_last hp0
  refine ⟨fun r _ => i r, fun r _ => i0 r, fun r hr => ?_⟩
  have hroom := fun k (hk : k < w.d) => rank_room h hr hk
  have hsd := hside r hr
  let y : Nat → Int := fun k => if k = 0 then (if (w.shape r).x1 0 = w.g1 0 then w.g0 0 else (w.shape r).x1 0) else (w.shape r).x1 k - 1
  have hy0 : y 0 = if (w.shape r).x1 0 = w.g1 0 then w.g0 0 else (w.shape r).x1 0 := if_pos rfl
  have hyk : ∀ k, k ≠ 0 → y k = (w.shape r).x1 k - 1 := fun k hk => if_neg hk
  refine ⟨y, fun k hk => ?_, fun k hk => ?_, fun s hs hys n => ?_⟩
  · have a := hroom k hk
    have b := (shape_wf h hr).side k hk
    show w.g0 k ≤ y k ∧ y k < w.g1 k
    by_cases e : k = 0
    · subst e
      rw [hy0]
      split_ifs <;> omega
    · rw [hyk k e]; omega
  · rw [hcen r hr 0 k hk]
    by_cases e : k = 0
    · subst e
      refine ⟨1, by simp, ?_⟩
      rw [hy0]
      split_ifs with e1
      · exact ⟨-1, by omega⟩
      · exact ⟨0, by omega⟩
    · exact ⟨0, by simp, 0, by rw [hyk k e]; omega⟩
  · rintro ⟨j, -, hn⟩
    have a := hn 0 hd
    rw [hcen s hs j 0 hd] at a
    have b := hys 0 hd
    have c := hside s hs
    obtain ⟨s0, s1, p0, p1⟩ := hlim s hs
    obtain ⟨r0, r1, q0, q1⟩ := hlim r hr
    have hmono := fun k l (hkl : k ≤ l) => Decomp.cut_mono (g0 := w.g0 0) (g1 := w.g1 0) (p := w.p 0) (h.setup.box 0 hd) hp0 (k := k) (l := l) hkl
    have hx : y 0 = (w.shape s).x0 0 := by
      rw [hy0] at b ⊢
      split_ifs at b ⊢ with e1
      · have := hmono 0 _ p0
        omega
      · rw [s0, r1]
        congr 1
        rw [r1, s0, s1] at b
        refine Decomp.cut_unique (g0 := w.g0 0) (g1 := w.g1 0) (p := w.p 0) (h.setup.box 0 hd) hp0 (x := Decomp.cut (w.g0 0) (w.g1 0) (w.p 0) (Decomp.pos w.d w.p r 0 + 1)) ⟨le_rfl, ?_⟩ b
        have h2 : 1 ≤ (w.g1 0 - w.g0 0) / w.p 0 := by
          rw [Int.le_ediv_iff_mul_le hp0, one_mul]
          exact h.setup.fits 0 hd
        have h3 := Decomp.cut_succ (w.g0 0) (w.g1 0) (w.p 0) (Decomp.pos w.d w.p r 0 + 1)
        split_ifs at h3 <;> omega
    omega

section
variable {D : Type} {fmt : Format Int D} {m : Meta D} {P : Int → Prop} (hfmt : fmt.Good P) (hm : m.Good fmt) {ghosts : Int} {np : Nat} (hok : (m.world fmt.d ghosts np).Ok np)
  (hnp : np < 2 ^ 31) (hw : ∀ r, IsRank np r → Writes fmt P ((m.world fmt.d ghosts np).shape r)) (hper : Periodic (m.world fmt.d ghosts np)) (hgh : 1 ≤ ghosts)
include hfmt hm hok hnp hw hper hgh

/-- **C104.** The cut particles in the file: Monte Carlo Zener pinning generated on any number of ranks can write a file in which, beside the centre of the first particle of each rank, a node
is not a particle. -/
theorem monteCarlo_cut (hP : P 0 ∧ P 1 ∧ P 2) (hside : ∀ r, IsRank np r → 3 ≤ ((m.world fmt.d ghosts np).shape r).x1 0 - ((m.world fmt.d ghosts np).shape r).x0 0) {new : Int → Int → Int}
    (hnew : ∀ r o, P (new r o)) :
    ∃ rand : Int → Nat → Int, (∀ r j, 0 ≤ rand r j) ∧ ∃ writes,
      generateFile fmt m ghosts np (fun r => zener ((m.world fmt.d ghosts np).shape r) (monteCarloNode fmt.d) (fun _ => .ok 0) (rand r) (new r)) = .ok writes ∧
      ∃ out F, (∀ W, W.Perm writes → ∀ i, written W i = out[i]?) ∧ Denotes fmt m F out ∧ ∀ r, IsRank np r → F (centre ((m.world fmt.d ghosts np).shape r) (rand r) 0) = 0 ∧
        ∃ y, (m.serial fmt.d).IsNode y ∧ Beside (m.world fmt.d ghosts np) (centre ((m.world fmt.d ghosts np).shape r) (rand r) 0) y ∧ F y ≠ 0 := by
  obtain ⟨rand, hr, hcut⟩ := particles_cut hok hside
  obtain ⟨writes, e, out, F, ho, hd, hF⟩ := monteCarlo_file hfmt hm hok hnp hw hper hgh hP hr hnew
  refine ⟨rand, hr, writes, e, out, F, ho, hd, fun r hr' => ⟨?_, ?_⟩⟩
  · refine (hF r hr' _ (centre_node (shape_wf hok hr') _ _)).1 ⟨0, ?_, fun j hj => ⟨by omega, by omega⟩⟩
    unfold nParticles
    omega
  · obtain ⟨y, hy, hb, hnot⟩ := hcut r hr'
    refine ⟨y, hy, hb, ?_⟩
    obtain ⟨s, ⟨s0, s1, hs⟩, -⟩ := Decomp.partition (np := np) hok.setup.grid hok.setup.box (x := y) hy
    rw [(hF s ⟨s0, s1⟩ y hs).2 (hnot s ⟨s0, s1⟩ hs _)]
    split_ifs <;> decide

end

/-! ## The number of particles -/

/-- The number of particles placed by all ranks. -/
def placed (w : World) (np : Nat) : Nat := ∑ r ∈ Finset.range np, nParticles (w.shape r).nodes

theorem nParticles_anti {a b : Int} (ha : 0 < a) (hab : a ≤ b) : nParticles b ≤ nParticles a := by
  unfold nParticles
  refine Int.toNat_le_toNat (max_le_max le_rfl ?_)
  rw [Int.tdiv_eq_ediv_of_nonneg (by decide), Int.tdiv_eq_ediv_of_nonneg (by decide)]
  rw [Int.le_ediv_iff_mul_le ha]
  have h0 : 0 ≤ 50 * 8192 / b := Int.ediv_nonneg (by decide) (by omega)
  exact le_trans (mul_le_mul_of_nonneg_left hab h0) (Int.ediv_mul_le _ (by omega))

/-- **C104.** `np` ranks place at least `np` times as many particles as the serial program in the same volume. -/
theorem placed_ge {w : World} {np : Nat} (h : w.Ok np) : np * nParticles w.serial.nodes ≤ placed w np := by
  unfold placed
  have : ∀ r ∈ Finset.range np, nParticles w.serial.nodes ≤ nParticles (w.shape r).nodes := by
    intro r hr
    have hr' : IsRank np r := ⟨by omega, by have := Finset.mem_range.1 hr; omega⟩
    refine nParticles_anti (nodes_pos (shape_wf h hr')) ?_
    rw [Shape.nodes_eq (shape_wf h hr'), Shape.nodes_eq (serial_wf h)]
    refine Finset.prod_le_prod (fun j hj => by have := (shape_wf h hr').side j (Finset.mem_range.1 hj); omega) fun j hj => ?_
    have := rank_room h hr' (Finset.mem_range.1 hj)
    have e0 : w.serial.x0 j = w.g0 j := rfl
    have e1 : w.serial.x1 j = w.g1 j := rfl
    omega
  have := Finset.card_nsmul_le_sum _ _ _ this
  simpa using this

/-- **C104.** On grids of up to 8192 nodes (the one-dimensional examples) that divide evenly, `np` ranks place at least `np * np` times as many. -/
theorem placed_square {w : World} {np : Nat} (h : w.Ok np) (hN : w.serial.nodes ≤ 8192) (heq : ∀ r, IsRank np r → np * (w.shape r).nodes = w.serial.nodes) :
    np * np * nParticles w.serial.nodes ≤ placed w np := by
  unfold placed
  have hN0 := nodes_pos (serial_wf h)
  have : ∀ r ∈ Finset.range np, np * nParticles w.serial.nodes ≤ nParticles (w.shape r).nodes := by
    intro r hr
    have hr' : IsRank np r := ⟨by omega, by have := Finset.mem_range.1 hr; omega⟩
    have hm := nodes_pos (shape_wf h hr')
    have e := heq r hr'
    have hn : (0 : Int) < np := by have := Finset.mem_range.1 hr; omega
    generalize (w.shape r).nodes = m at hm e ⊢
    generalize w.serial.nodes = N at hN hN0 e ⊢
    unfold nParticles
    rw [Int.tdiv_eq_ediv_of_nonneg (by decide), Int.tdiv_eq_ediv_of_nonneg (by decide)]
    have h1 : (50 : Int) ≤ 50 * 8192 / N := by rw [Int.le_ediv_iff_mul_le hN0]; omega
    have h2 : (np : Int) * (50 * 8192 / N) ≤ 50 * 8192 / m := by
      rw [Int.le_ediv_iff_mul_le hm]
      have h3 : 50 * 8192 / N * N ≤ 50 * 8192 := Int.ediv_mul_le _ hN0.ne'
      calc (np : Int) * (50 * 8192 / N) * m = 50 * 8192 / N * (np * m) := by ring
        _ ≤ _ := by rw [e]; exact h3
    rw [max_eq_right h1]
    have h4 : (np : Int) * (50 * 8192 / N) ≤ max 50 (50 * 8192 / m) := le_trans h2 (le_max_right _ _)
    have h5 : ((50 * 8192 / N).toNat : Int) = 50 * 8192 / N := Int.toNat_of_nonneg (by omega)
    zify
    rw [h5]
    exact le_trans h4 (Int.self_le_toNat _)
  have := Finset.card_nsmul_le_sum _ _ _ this
  rw [Finset.card_range, smul_eq_mul, ← mul_assoc] at this
  exact this

/-! ## Examples -/

/-- The line of 1024 nodes of the one-dimensional examples, periodic. -/
def ring (fields : Int) : Meta { n : Int // -2 ^ 31 ≤ n ∧ n < 2 ^ 31 } := ⟨fields, [(0, 1024)], [⟨1, by decide⟩], [(.periodic, .periodic)]⟩

/-- `grid<1,int>` -/
def ints : Format Int { n : Int // -2 ^ 31 ≤ n ∧ n < 2 ^ 31 } :=
  ⟨none, mapCell (primCell Voxel.intCodec) (fun n => if h : -2 ^ 31 ≤ n ∧ n < 2 ^ 31 then ⟨n, h⟩ else ⟨0, by decide⟩) Subtype.val, fun _ => 0, wholeDecimal, ⟨1, by decide⟩,
    gridName (ascii "int"), 1⟩

theorem ring_good {T : Type} {fmt : Format T { n : Int // -2 ^ 31 ≤ n ∧ n < 2 ^ 31 }} (hd : fmt.d = 1) {fields : Int} (hf : IsInt fields) (hdec : fmt.dec = wholeDecimal) : (ring fields).Good fmt := by
  refine ⟨by omega, by rw [hd]; exact ⟨by decide, by decide⟩, hd.symm, hd.symm, hd.symm, hf, ?_, ?_, fun _ _ => by rw [hdec]; rfl⟩
  · intro j hj; obtain rfl : j = 0 := by omega
    show (0 : Int) ≤ 1024
    decide
  · intro j hj; obtain rfl : j = 0 := by omega
    exact ⟨⟨show (-2 : Int) ^ 31 ≤ 0 by decide, show (0 : Int) < 2 ^ 31 by decide⟩, ⟨show (-2 : Int) ^ 31 ≤ 1024 by decide, show (1024 : Int) < 2 ^ 31 by decide⟩⟩

theorem ring_ok (fields : Int) {np : Nat} (h : np = 1 ∨ np = 2 ∨ np = 4) : ((ring fields).world 1 1 np).Ok np := by
  have hb : ∀ j, j < 1 → (ring fields).g0 j ≤ (ring fields).g1 j := by
    intro j hj; obtain rfl : j = 0 := by omega
    show (0 : Int) ≤ 1024
    decide
  have hr : ∀ (P : Int → Nat → Prop), (∀ r ∈ [(0 : Int), 1, 2, 3], r < np → P r 0) → ∀ r : Int, 0 ≤ r → r < np → ∀ j, j < 1 → P r j := by
    intro P hP r h0 h1 j hj
    obtain rfl : j = 0 := by omega
    apply hP r _ h1
    have : r = 0 ∨ r = 1 ∨ r = 2 ∨ r = 3 := by omega
    simpa using this
  have hthick : ∀ r : Int, 0 ≤ r → r < np → ∀ j, j < 1 → 1 < (((ring 0).world 1 1 np).shape r).x1 j - (((ring 0).world 1 1 np).shape r).x0 j := by
    refine hr (fun r j => 1 < (((ring 0).world 1 1 np).shape r).x1 j - (((ring 0).world 1 1 np).shape r).x0 j) ?_
    rcases h with rfl | rfl | rfl <;> decide +kernel
  have hfits : ∀ j, j < 1 → ((ring 0).world 1 1 np).p j ≤ (ring 0).g1 j - (ring 0).g0 j := by
    intro j hj; obtain rfl : j = 0 := by omega
    rcases h with rfl | rfl | rfl <;> decide +kernel
  refine ⟨⟨Decomp.choose_procGrid (by omega) (show 0 < 1 by decide) hb, show 0 < 1 by decide, hb, show (0 : Int) ≤ 1 by decide, hfits, fun r h0 h1 j hj => (hthick r h0 h1 j hj).le⟩, ?_, ?_⟩
  · intro j hj; obtain rfl : j = 0 := by change j < 1 at hj; omega
    show BC.periodic ≠ .parallel ∧ BC.periodic ≠ .parallel
    decide
  · exact fun j hj _ r hr' => hthick r hr'.1 hr'.2 j hj

theorem ring_nodes (fields : Int) {r : Int} (hr : IsRank 4 r) : (((ring fields).world 1 1 4).shape r).nodes = 256 := by
  have : r = 0 ∨ r = 1 ∨ r = 2 ∨ r = 3 := by have := hr.1; have := hr.2; omega
  have key : (((ring 0).world 1 1 4).shape r).nodes = 256 := by rcases this with rfl | rfl | rfl | rfl <;> decide +kernel
  exact key

theorem ring_periodic (fields : Int) (np : Nat) : Periodic ((ring fields).world 1 1 np) := by
  intro j hj; obtain rfl : j = 0 := by change j < 1 at hj; omega
  exact ⟨rfl, rfl⟩

theorem ring_writes {T : Type} {fmt : Format T { n : Int // -2 ^ 31 ≤ n ∧ n < 2 ^ 31 }} {P : T → Prop} (hcomp : fmt.comp = none) (hc : RoundTrips fmt.cell)
    (hP : ∀ v, P v → fmt.cell.Valid v) (hB : ∀ v, P v → fmt.cell.size v ≤ 1000) (fields : Int) {np : Nat} (h : np = 1 ∨ np = 2 ∨ np = 4) {r : Int} (hr : IsRank np r) :
    Writes fmt P (((ring fields).world 1 1 np).shape r) := by
  have ok := ring_ok fields h
  refine bounded_fits hcomp hc hP hB (shape_wf ok hr) ?_
  have h1 := sites_rank ok hr
  have h2 : sites ((ring fields).serial 1) = 1024 := rfl
  show _ + 16 * 1 + 16 < _
  omega

theorem ints_good : ints.Good fun n => 0 ≤ n ∧ n < 3 := by
  refine ⟨mapCell_roundTrips (primCell_roundTrips _) _ _, by rintro z ⟨⟩, by decide, by decide, fun v h => ⟨trivial, ?_⟩⟩
  show (if h : -2 ^ 31 ≤ v ∧ v < 2 ^ 31 then (⟨v, h⟩ : Voxel.CInt) else _).val = v
  rw [dif_pos ⟨by omega, by omega⟩]

/-- Monte Carlo Zener pinning on four ranks of 256 nodes: the file exists, and particles can be cut. -/
example : ∃ rand : Int → Nat → Int, (∀ r j, 0 ≤ rand r j) ∧ ∃ writes,
      generateFile ints (ring 0) 1 4 (fun r => zener (((ring 0).world 1 1 4).shape r) (monteCarloNode 1) (fun _ => .ok 0) (rand r) fun _ => 0) = .ok writes ∧
      ∃ out F, (∀ W, W.Perm writes → ∀ i, written W i = out[i]?) ∧ Denotes ints (ring 0) F out ∧ ∀ r, IsRank 4 r → F (centre (((ring 0).world 1 1 4).shape r) (rand r) 0) = 0 ∧
        ∃ y, ((ring 0).serial 1).IsNode y ∧ Beside ((ring 0).world 1 1 4) (centre (((ring 0).world 1 1 4).shape r) (rand r) 0) y ∧ F y ≠ 0 :=
  monteCarlo_cut ints_good (ring_good rfl ⟨by decide, by decide⟩ rfl) (ring_ok 0 (by decide)) (by decide)
    (fun r hr => ring_writes rfl ints_good.cell ints_good.valid (fun v _ => by show 4 ≤ 1000; decide) 0 (by decide) hr) (ring_periodic 0 4) (by decide) ⟨by decide, by decide, by decide⟩
    (fun r hr => by
      have : r = 0 ∨ r = 1 ∨ r = 2 ∨ r = 3 := by have := hr.1; have := hr.2; omega
      rcases this with rfl | rfl | rfl | rfl <;> decide +kernel) (fun _ _ => ⟨le_rfl, by decide⟩)

/-- Dense phase fields on two ranks. -/
example (rand : Int → Nat → Int) (hr : ∀ r j, 0 ≤ rand r j) : letI : One Byte := ⟨1⟩
    ∃ writes, generateFile vectors (ring 3) 1 2 (fun r => zener (((ring 3).world 1 1 2).shape r) (denseNode 1) denseMark (rand r) fun _ => [7, 7, 7]) = .ok writes := by
  let : One Byte := ⟨1⟩
  have hg : vectors.Good fun v => v.length = 3 := ⟨vectorCell_roundTrips byteCodec, by rintro z ⟨⟩, by decide, by decide, fun v h => by show v.length < 2 ^ 31; omega⟩
  obtain ⟨writes, e, -⟩ := dense_file hg (ring_good rfl ⟨by decide, by decide⟩ rfl) (ring_ok 3 (by decide)) (np := 2) (by decide)
    (fun r hr => ring_writes rfl hg.cell hg.valid (fun v h => by show 4 + v.length * 1 ≤ 1000; omega) 3 (by decide) hr) (ring_periodic 3 2) (by decide) hr (new := fun _ _ => [7, 7, 7]) fun _ _ => rfl
  exact ⟨writes, e⟩

/-- Sparse phase fields on four ranks. -/
example (rand : Int → Nat → Int) (hr : ∀ r j, 0 ≤ rand r j) : letI : One Byte := ⟨1⟩
    ∃ writes, generateFile sparses (ring 0) 1 4 (fun r => zener (((ring 0).world 1 1 4).shape r) (sparseNode 1) Generate.markSparse (rand r) fun _ => []) = .ok writes := by
  let : One Byte := ⟨1⟩
  have hb := sparse_buffers byteCodec 3 ⟨[0, 0, 0], rfl⟩ (I := {0, 1, 2}) (by decide) (by decide)
  have hg : sparses.Good (Lists {0, 1, 2}) := ⟨hb.1, by rintro z ⟨⟩, by decide, by decide, hb.2⟩
  obtain ⟨writes, e, -⟩ := sparse_file hg (ring_good rfl ⟨by decide, by decide⟩ rfl) (ring_ok 0 (by decide)) (np := 4) (by decide)
    (fun r hr => ring_writes rfl hg.cell hg.valid (fun v h => by
      show 4 + (ConvertFile.items ⟨[0, 0, 0], rfl⟩ v).length * (4 + 3 + 1) ≤ _
      have h1 : v.length = (Sparse.keys v).toFinset.card := by rw [List.toFinset_card_of_nodup h.1]; simp [Sparse.keys]
      have h2 := Finset.card_le_card (fun k hk => h.2 k (List.mem_toFinset.1 hk) : (Sparse.keys v).toFinset ⊆ {0, 1, 2})
      have h3 : ({0, 1, 2} : Finset Int).card = 3 := by decide
      rw [ConvertFile.items, List.length_map]
      omega) 0 (by decide) hr) (ring_periodic 0 4) (by decide) hr
  exact ⟨writes, e⟩

/-- 400 particles serially, 6400 on four ranks: more than the 1024 nodes of the line. -/
example : nParticles ((ring 0).world 1 1 4).serial.nodes = 400 ∧ 6400 ≤ placed ((ring 0).world 1 1 4) 4 := by
  have e : ((ring 0).world 1 1 4).serial.nodes = 1024 := by decide +kernel
  have h := placed_square (ring_ok 0 (np := 4) (by decide)) (by rw [e]; decide) fun r hr => by rw [ring_nodes 0 hr, e]; rfl
  rw [e] at h ⊢
  exact ⟨rfl, h⟩

end MMSP.GenerateRanks
