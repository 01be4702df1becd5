import Verif.IeeeConfine
import Verif.GenerateStart
/-!
# Property C114: random starts, and Allen-Cahn in doubles from `generate` to the last restart

`generate` of the examples with random initial values fills node after node with a function of the next random number, on every rank from that rank's own sequence. The values in the file are
described for any number of ranks. For the Allen-Cahn example the theorems join this with reading, running and writing on any numbers of ranks (C72), with cells of eight bytes (`Ieee.doubleBytes`)
and the arithmetic of C113.
-/

namespace MMSP.IeeeWhole

open Ghost FileIO ParallelRun Sessions GenerateRanks
open DensePF (pass)
open Symmetry (Room acRhs)
open Ieee Ieee.Num IeeeConfine

/-! ## Model -/

section
variable {T D : Type}

/-- `for (int i=0; i<nodes(initGrid); i++) initGrid(i) = f(rand())` in either build: `allen-cahn.cpp` 19-20, 29-30, 39-40, explicit `cahn-hilliard.cpp` 19-20, `ising.cpp` 18-19, `potts.cpp` 19-20,
`Monte_Carlo/graingrowth.cpp` 25-26. `rand n` is the result of call number `n` of this rank. -/
def fill (bd : Build) (g : Shape) (f : Int → T) (rand : Nat → Int) (new : Int → T) : Outcome (Int → T) := pass bd g (fun i _ => .ok (f (rand i.toNat))) new

/-- `file` is what `generate` leaves behind: the serial program (`none`), or that many ranks, whose writes take effect in any order. `include/MMSP.main.hpp` 91-122. `rand r` are the random numbers of
rank `r`, `new r` is what `new T[n]` gave it. -/
def Begun (fmt : Format T D) (m : Meta D) (ghosts : Int) (f : Int → T) (rand : Int → Nat → Int) (new : Int → Int → T) (ranks : Option Nat) (file : List Byte) : Prop :=
  match ranks with
  | none => generateSerial fmt m (fill .serial (m.serial fmt.d) f (rand 0) (new 0)) = .ok file
  | some np => ∃ writes, generateFile fmt m ghosts np (fun r => fill .mpi ((m.world fmt.d ghosts np).shape r) f (rand r) (new r)) = .ok writes ∧ ∃ W, W.Perm writes ∧ ∀ i, written W i = file[i]?

/-- `1.0-2.0*double(rand())/double(RAND_MAX)`, `allen-cahn.cpp` 20, 30, 40 -/
noncomputable def startValue (randMax r : Int) : Num double := 1 - (1 + 1) * Num.of double r / Num.of double randMax

/-! ## Specification -/

/-- The part of the grid a process fills. -/
def part (fmt : Format T D) (m : Meta D) (ghosts : Int) (ranks : Option Nat) (r : Int) : Shape :=
  match ranks with
  | none => m.serial fmt.d
  | some np => (m.world fmt.d ghosts np).shape r

/-- The field made of one random number per node: the node with index `i` on rank `r` has the `i`-th number of rank `r`. -/
def Scattered (fmt : Format T D) (m : Meta D) (ghosts : Int) (f : Int → T) (rand : Int → Nat → Int) (ranks : Option Nat) (F : (Nat → Int) → T) : Prop :=
  ∀ r, IsRank (ranks.getD 1) r → ∀ i : Nat, (i : Int) < (part fmt m ghosts ranks r).nodes →
    ∀ x, (∀ j, j < fmt.d → x j = (part fmt m ghosts ranks r).position i j) → F x = f (rand r i)

/-! ## Filling a grid -/

/-- The loop over the nodes: node `i` gets the value of call `i`, other cells are left alone. -/
theorem fill_spec {bd : Build} {g : Shape} (hg : g.Wf) (hser : bd = .serial → g.ghosts = 0) (f : Int → T) (rand : Nat → Int) (new : Int → T) :
    ∃ out, fill bd g f rand new = .ok out ∧ (∀ i : Nat, (i : Int) < g.nodes → cellAt g out (g.position i) = f (rand i)) ∧ ∀ p, (∀ x, g.IsNode x → g.rawOffset x ≠ p) → out p = new p := by
  have hnn := (nodes_pos hg).le
  have key : ∀ k : Nat, (k : Int) ≤ g.nodes → ∃ out, (List.range k).foldlM (fun out (i : Nat) =>
        (deref g out (g.atNode bd i)).bind fun z => (Outcome.ok (f (rand (i : Int).toNat))).bind fun v => store g out (g.atNode bd i) v) new = .ok out ∧
      (∀ i : Nat, i < k → out (g.atNode bd i) = f (rand i)) ∧ ∀ p, (∀ i : Nat, i < k → g.atNode bd i ≠ p) → out p = new p := by
    intro k
    induction k with
    | zero => intro _; exact ⟨new, rfl, fun i h => absurd h (by omega), fun _ _ => rfl⟩
    | succ k ih =>
      intro hk
      obtain ⟨out, e, h1, h2⟩ := ih (by omega)
      have hb : 0 ≤ g.atNode bd k ∧ g.atNode bd k < g.cells := by
        rw [atNode_raw hg hser (by omega) (by omega)]
        exact Shape.rawOffset_bounds hg (isCell_of_isNode hg.ghosts (Shape.position_isNode hg (by omega) (by omega)))
      have hde : deref g out (g.atNode bd k) = .ok (out (g.atNode bd k)) := by unfold deref; rw [if_pos hb]
      have hst : ∀ v, store g out (g.atNode bd k) v = .ok (Function.update out (g.atNode bd k) v) := fun v => by unfold store; exact if_pos hb
      refine ⟨Function.update out (g.atNode bd k) (f (rand k)), ?_, fun i hi => ?_, fun p hp => ?_⟩
      · rw [List.range_succ, List.foldlM_append, e]
        simp only [List.foldlM_cons, List.foldlM_nil, Outcome.bind_eq, Outcome.ok_bind, Outcome.pure_eq, hde, hst, Int.toNat_natCast]
      · by_cases ei : i = k
        · subst ei; rw [Function.update_self]
        · rw [Function.update_of_ne fun e => ei (by have := atNode_inj hg hser (by omega) (by omega) (by omega) (by omega) e; omega)]
          exact h1 i (by omega)
      · rw [Function.update_of_ne fun e => hp k (by omega) e.symm]
        exact h2 p fun i hi => hp i (by omega)
  obtain ⟨out, e, h1, h2⟩ := key g.nodes.toNat (by omega)
  refine ⟨out, e, fun i hi => ?_, fun p hp => h2 p fun i hi => ?_⟩
  · unfold cellAt
    rw [← atNode_raw hg hser (by omega) hi]
    exact h1 i (by omega)
  · rw [atNode_raw hg hser (by omega) (by omega)]
    exact hp _ (Shape.position_isNode hg (by omega) (by omega))

section
variable {fmt : Format T D} {m : Meta D} {P : T → Prop} (hfmt : fmt.Good P) (hm : m.Good fmt) {ghosts : Int} {ranks : Option Nat}
  (hok : (m.world fmt.d ghosts (ranks.getD 1)).Ok (ranks.getD 1)) (hnp : ranks.getD 1 < 2 ^ 31) (hs : Fits fmt P (m.serial fmt.d))
  (hw : ∀ np, ranks = some np → ∀ r, IsRank np r → Writes fmt P ((m.world fmt.d ghosts np).shape r)) {f : Int → T} {rand : Int → Nat → Int} (hf : ∀ r n, P (f (rand r n)))
  {new : Int → Int → T} (hnew : ∀ r o, P (new r o))
include hfmt hm hok hnp hs hw hf hnew

/-- **C114.** Random starts: on any number of ranks, and serially, a file is written, and every such file holds at each node the value made of its own random number. -/
theorem begun : (∃ file, Begun fmt m ghosts f rand new ranks file) ∧
    ∀ file, Begun fmt m ghosts f rand new ranks file → ∃ F, Denotes fmt m F file ∧ Scattered fmt m ghosts f rand ranks F := by
  have hpass : ∀ bd g, g.Wf → (bd = .serial → g.ghosts = 0) → ∀ r, ∃ a, fill bd g f (rand r) (new r) = .ok a ∧ (∀ q, 0 ≤ q → q < g.cells → P (a q)) ∧
      ∀ i : Nat, (i : Int) < g.nodes → cellAt g a (g.position i) = f (rand r i) := by
    intro bd g hg hser r
    obtain ⟨a, h1, h2, h3⟩ := fill_spec (bd := bd) hg hser f (rand r) (new r)
    refine ⟨a, h1, fun q _ _ => ?_, h2⟩
    by_cases hq : ∃ x, g.IsNode x ∧ g.rawOffset x = q
    · obtain ⟨x, hx, rfl⟩ := hq
      obtain ⟨i, ⟨h0, h1', hsame⟩, _⟩ := Shape.position_surj hg hx
      have := h2 i.toNat (by omega)
      rw [Int.toNat_of_nonneg h0] at this
      unfold cellAt at this
      rw [rawOffset_congr hsame] at this
      rw [this]
      exact hf _ _
    · rw [h3 q fun x hx e => hq ⟨x, hx, e⟩]
      exact hnew _ _
  cases ranks with
  | none =>
    obtain ⟨a, h1, h2, h3⟩ := hpass .serial (m.serial fmt.d) (serial_wf hok) (fun _ => rfl) 0
    obtain ⟨out, e, hd⟩ := serial_denotes hfmt hm hs h1 h2
    refine ⟨⟨out, e⟩, fun file hfile => ?_⟩
    obtain rfl := Outcome.ok.inj (e.symm.trans hfile)
    refine ⟨_, hd, fun r hr i hi x hi' => ?_⟩
    obtain rfl : r = 0 := by have h0 := hr.1; have h1 := hr.2; change r < 1 at h1; omega
    rw [← h3 i hi]
    unfold cellAt
    rw [rawOffset_congr fun j hj => hi' j hj]
    rfl
  | some np =>
    replace hok : (m.world fmt.d ghosts np).Ok np := hok
    have hz : ∀ r, ∃ a, IsRank np r → let g := (m.world fmt.d ghosts np).shape r; fill .mpi g f (rand r) (new r) = .ok a ∧ (∀ q, 0 ≤ q → q < g.cells → P (a q)) ∧
        ∀ i : Nat, (i : Int) < g.nodes → cellAt g a (g.position i) = f (rand r i) := by
      intro r
      by_cases hr : IsRank np r
      · obtain ⟨a, h⟩ := hpass .mpi _ (shape_wf hok hr) (fun e => by cases e) r
        exact ⟨a, fun _ => h⟩
      · exact ⟨new r, fun h => absurd h hr⟩
    choose data hdata using hz
    obtain ⟨F, hF⟩ := glue hok data
    obtain ⟨writes, e, out, ho, hd⟩ := generate_denotes hfmt hm hok hnp (hw np rfl) (gen := fun r => fill .mpi ((m.world fmt.d ghosts np).shape r) f (rand r) (new r)) (fun r hr => (hdata r hr).1)
      (fun r hr => (hdata r hr).2.1) hF
    refine ⟨⟨out, writes, e, writes, .refl _, ho _ (.refl _)⟩, ?_⟩
    rintro file ⟨writes', e', W, hW, hi⟩
    obtain rfl := Outcome.ok.inj (e.symm.trans e')
    obtain rfl : out = file := List.ext_getElem? fun i => (ho W hW i).symm.trans (hi i)
    refine ⟨F, hd, fun r hr i hi x hi' => ?_⟩
    have hx := Shape.position_isNode (shape_wf hok hr) (i := i) (by omega) hi
    have hx' : ((m.world fmt.d ghosts np).shape r).IsNode x := fun j hj => by rw [hi' j hj]; exact hx j hj
    rw [← hF r hr x hx', ← (hdata r hr).2.2 i hi]
    unfold cellAt
    rw [rawOffset_congr fun j hj => hi' j hj]
    rfl

end

/-- Every node has an index on some rank, so a scattered field has only values made of random numbers. -/
theorem Scattered.all {fmt : Format T D} {m : Meta D} {ghosts : Int} {ranks : Option Nat} (hok : (m.world fmt.d ghosts (ranks.getD 1)).Ok (ranks.getD 1)) {f : Int → T} {rand : Int → Nat → Int}
    {F : (Nat → Int) → T} (h : Scattered fmt m ghosts f rand ranks F) {x : Nat → Int} (hx : (m.serial fmt.d).IsNode x) :
    ∃ r, IsRank (ranks.getD 1) r ∧ ∃ n : Nat, F x = f (rand r n) := by
  have key : ∀ r g, IsRank (ranks.getD 1) r → part fmt m ghosts ranks r = g → g.Wf → g.dim = fmt.d → g.IsNode x → ∃ r, IsRank (ranks.getD 1) r ∧ ∃ n : Nat, F x = f (rand r n) := by
    rintro r g hr rfl hg hd hx
    obtain ⟨i, ⟨h0, h1, hsame⟩, _⟩ := Shape.position_surj hg hx
    refine ⟨r, hr, i.toNat, ?_⟩
    refine h r hr i.toNat (by omega) x fun j hj => ?_
    rw [Int.toNat_of_nonneg h0]
    exact (hsame j (by omega)).symm
  cases ranks with
  | none => exact key 0 _ ⟨le_rfl, by decide⟩ rfl (serial_wf hok) rfl hx
  | some np =>
    obtain ⟨r, ⟨h0, h1, hn⟩, -⟩ := Decomp.partition (np := np) hok.setup.grid hok.setup.box (x := x) hx
    exact key r _ ⟨h0, h1⟩ rfl (shape_wf hok ⟨h0, h1⟩) rfl hn

end

/-! ## The start of Allen-Cahn -/

/-- Conversion of an `int` that is not negative: rounding keeps the order, and nothing overflows. -/
theorem int_is {n : Int} (h0 : 0 ≤ n) (h1 : n < 2 ^ 31) : Is (Num.of double (n : ℝ)) (n : ℝ) := by
  have hr : Rep double (n : ℝ) := ⟨n, 0, by rw [abs_of_nonneg h0]; exact h1.le.trans (by decide), by decide, by simp⟩
  have e := rnd_rep (f := double) (by decide) hr
  have b : ((n : ℝ)) < 2 ^ 31 := by exact_mod_cast h1
  have := of_is (f := double) (x := (n : ℝ)) (by
    rw [e, abs_of_nonneg (by exact_mod_cast h0)]
    exact lt_of_lt_of_le (b.trans (by norm_num)) top_double)
  rwa [e] at this

/-- The initial values are finite and within `±1`. -/
theorem startValue_unit {randMax r : Int} (h0 : 0 ≤ r) (h1 : r ≤ randMax) (hp : 0 < randMax) (hb : randMax < 2 ^ 31) : Unit (startValue randMax r) := by
  refine initial_unit double_good (int_is h0 (by omega)) (int_is hp.le hb) (by exact_mod_cast h0) (by exact_mod_cast h1) (by exact_mod_cast hp) ?_
  have b : ((randMax : ℝ)) < 2 ^ 31 := by exact_mod_cast hb
  exact lt_of_lt_of_le (by linarith) ((by norm_num : (2 : ℝ) * 2 ^ 31 ≤ 2 ^ 100).trans top_double)

/-! ## Allen-Cahn from the first file to the last -/

/-- The array of whoever reads the file serially. -/
theorem read_array {T D : Type} {fmt : Format T D} (hacc : checkType fmt.name fmt.name = .ok ()) {m : Meta D} {F : (Nat → Int) → T} {file : List Byte} (h : Denotes fmt m F file) :
    ∃ a : Int → T, ∀ x, (m.serial fmt.d).IsNode x → cellAt (m.serial fmt.d) a x = F x := by
  obtain ⟨o, -, hs⟩ := h .serial fmt.name hacc 0 le_rfl 1 0 ⟨le_rfl, by decide⟩
  have e : SameBox o.local_.shape (m.serial fmt.d) := ⟨hs.box.1, hs.box.2.1, hs.box.2.2.1, hs.box.2.2.2⟩
  refine ⟨o.local_.data, fun x hx => ?_⟩
  rw [← e.cellAt]
  exact hs.value x ((e.node x).2 hx)

section
variable {D : Type} {fmt : Format (Num double) D} (hcomp : fmt.comp = none) {c : Codec (Num double)} (hcell : fmt.cell = primCell c) (hname : newline ∉ fmt.name)
  (hacc : checkType fmt.name fmt.name = .ok ()) {m : Meta D} (hm : m.Good fmt) (hsize : sites (m.serial fmt.d) * c.width + 16 * fmt.d + 16 < 2 ^ 31 - 1)
  (hroom : Room 1 (m.serial fmt.d)) (hdim : fmt.d ≤ 3) {conv : D → Num double} (hdx : ∀ j, conv (m.spacing fmt.dx0 j) = 1) {cube : Num double → Num double} (hcube : Cube cube)
  {randMax : Int} (hmax : 0 < randMax ∧ randMax < 2 ^ 31) {rand : Int → Nat → Int} (hrand : ∀ r n, 0 ≤ rand r n ∧ rand r n ≤ randMax) (new : Int → Int → Num double)
  {ghosts : Int} {ranks : Option Nat} (hok : (m.world fmt.d ghosts (ranks.getD 1)).Ok (ranks.getD 1)) (hnp : ranks.getD 1 < 2 ^ 31) {ps : List (Sessions.Part (Num double))}
  (hps : ∀ q ∈ ps, (m.world fmt.d q.ghosts (q.ranks.getD 1)).Ok (q.ranks.getD 1) ∧ q.ranks.getD 1 < 2 ^ 31 ∧ 1 ≤ q.ghosts)
include hcomp hcell hname hacc hm hsize hmax hrand hok hnp

/-- The first file: it is written, and everyone who reads it finds at each node the double made of its random number. -/
theorem first_file : (∃ file, Begun fmt m ghosts (startValue randMax) rand new ranks file) ∧ ∀ file, Begun fmt m ghosts (startValue randMax) rand new ranks file →
    ∃ F, Denotes fmt m F file ∧ Scattered fmt m ghosts (startValue randMax) rand ranks F ∧ ∀ x, (m.serial fmt.d).IsNode x → Unit (F x) := by
  have hfmt : fmt.Good (fun _ => True) := ⟨by rw [hcell]; exact primCell_roundTrips c, by rw [hcomp]; rintro z ⟨⟩, hname, hacc, fun _ _ => by rw [hcell]; trivial⟩
  have hB : ∀ v, True → fmt.cell.size v ≤ c.width := fun v _ => by rw [hcell]; exact le_rfl
  obtain ⟨h1, h2⟩ := begun hfmt hm hok hnp (bounded_fits hcomp hfmt.cell hfmt.valid hB (serial_wf hok) hsize).1 (fun np e r hr => by
    subst e
    refine bounded_fits hcomp hfmt.cell hfmt.valid hB (shape_wf hok hr) (lt_of_le_of_lt ?_ hsize)
    have := Nat.mul_le_mul_right c.width (sites_rank hok hr)
    exact Nat.add_le_add_right (Nat.add_le_add_right this _) _) (f := startValue randMax) (rand := rand) (fun _ _ => trivial) (new := new) fun _ _ => trivial
  refine ⟨h1, fun file hfile => ?_⟩
  obtain ⟨F, hd, hs⟩ := h2 file hfile
  refine ⟨F, hd, hs, fun x hx => ?_⟩
  obtain ⟨r, _, n, e⟩ := hs.all hok hx
  rw [e]
  exact startValue_unit (hrand r n).1 (hrand r n).2 hmax.1 hmax.2

include hroom hdim hdx hcube hps

/-- **C114.** Allen-Cahn in `double`s from `generate` on: on any number of ranks a first file is written, every chain of restarts on any numbers of ranks from any such file can be run to its end, and
its last file holds a finite number within `±1` at every node. Every file of a chain is the last of a shorter chain. -/
theorem every_file_unit : (∃ file last, Begun fmt m ghosts (startValue randMax) rand new ranks file ∧ Chain fmt (ps.map (Sessions.Part.session fmt.d conv (powRhs cube dt 1 1 1 1))) file last) ∧
    ∀ file last, Begun fmt m ghosts (startValue randMax) rand new ranks file → Chain fmt (ps.map (Sessions.Part.session fmt.d conv (powRhs cube dt 1 1 1 1))) file last →
      ∃ G, Denotes fmt m G last ∧ ∀ x, (m.serial fmt.d).IsNode x → Unit (G x) := by
  obtain ⟨⟨file, hb⟩, hall⟩ := first_file hcomp hcell hname hacc hm hsize hmax hrand new hok hnp
  have key : ∀ file, Begun fmt m ghosts (startValue randMax) rand new ranks file → (∃ last, Chain fmt (ps.map (Sessions.Part.session fmt.d conv (powRhs cube dt 1 1 1 1))) file last) ∧
      ∀ last, Chain fmt (ps.map (Sessions.Part.session fmt.d conv (powRhs cube dt 1 1 1 1))) file last → ∃ G, Denotes fmt m G last ∧ ∀ x, (m.serial fmt.d).IsNode x → Unit (G x) := by
    intro file hfile
    obtain ⟨F, hd, -, hu⟩ := hall file hfile
    obtain ⟨a, ha⟩ := read_array hacc hd
    obtain ⟨σ', e, h1, h2⟩ := allenCahn_restarts hcomp hcell hname hacc hm hsize conv (powRhs cube dt 1 1 1 1) hps hd (σ := fun _ => a) ha
    refine ⟨h1, fun last hlast => ⟨_, h2 last hlast, ?_⟩⟩
    obtain ⟨σ'', e', hu'⟩ := shipped_unit hcube hroom hdim (ps.map Sessions.Part.steps).sum (σ := fun _ => a) fun x hx => by show Unit (cellAt _ a x); rw [ha x hx]; exact hu x hx
    rw [funext hdx] at e
    obtain rfl := Outcome.ok.inj (e.symm.trans e')
    exact hu'
  obtain ⟨last, hlast⟩ := (key file hb).1
  exact ⟨⟨file, last, hb, hlast⟩, fun file last hf hl => (key file hf).2 last hl⟩

/-- **C114.** Up to 1000 steps in all: the last file agrees, to 9 digits behind the point, with the exact solution of the scheme from the values in the first file. -/
theorem last_file_right (hn : (ps.map Sessions.Part.steps).sum ≤ 1000) {file last : List Byte} (hfile : Begun fmt m ghosts (startValue randMax) rand new ranks file)
    (hlast : Chain fmt (ps.map (Sessions.Part.session fmt.d conv (powRhs cube dt 1 1 1 1))) file last) :
    ∃ (F G : (Nat → Int) → Num double) (τ τ' : Grids ℝ), Denotes fmt m F file ∧ Denotes fmt m G last ∧ (∀ x, (m.serial fmt.d).IsNode x → Is (F x) (cellAt (m.serial fmt.d) (τ 0) x)) ∧
      serialRun (m.serial fmt.d) (allenCahnUpdate fmt.d (fun _ => 1) (acRhs (1 / 100) 1 1 1 1) (ps.map Sessions.Part.steps).sum) τ = .ok τ' ∧
      ∀ x, (m.serial fmt.d).IsNode x → ∃ v, Is (G x) v ∧ |v - cellAt (m.serial fmt.d) (τ' 0) x| ≤ 1 / 10 ^ 9 := by
  obtain ⟨-, hall⟩ := first_file hcomp hcell hname hacc hm hsize hmax hrand new hok hnp
  obtain ⟨F, hd, -, hu⟩ := hall file hfile
  obtain ⟨a, ha⟩ := read_array hacc hd
  have hval : ∀ p, ∃ y : ℝ, Unit (a p) → Is (a p) y ∧ |y| ≤ 1 := fun p => by
    by_cases hp : Unit (a p)
    · exact ⟨_, fun _ => hp.choose_spec⟩
    · exact ⟨0, fun h => absurd h hp⟩
  choose b hb using hval
  obtain ⟨σ', e, h1, h2⟩ := allenCahn_restarts hcomp hcell hname hacc hm hsize conv (powRhs cube dt 1 1 1 1) hps hd (σ := fun _ => a) ha
  obtain ⟨σ'', τ', e1, e2, hP⟩ := shipped_thousand hcube hroom hdim hn (σ := fun _ => a) (τ := fun _ => b) fun x hx => by
    show Is (cellAt _ a x) (cellAt _ b x) ∧ |cellAt _ b x| ≤ 1
    exact hb _ (by have := hu x hx; rwa [← ha x hx] at this)
  rw [funext hdx] at e
  obtain rfl := Outcome.ok.inj (e.symm.trans e1)
  refine ⟨F, _, fun _ => b, τ', hd, h2 last hlast, fun x hx => ?_, e2, fun x hx => ?_⟩
  · show Is (F x) (cellAt _ b x)
    have := hu x hx
    rw [← ha x hx] at this ⊢
    exact (hb _ this).1
  · obtain ⟨v, a1, -, a3⟩ := hP x hx
    exact ⟨v, a1, a3⟩

end

/-! ## Examples -/

/-- `grid<1,double>` -/
noncomputable def doubles : Format (Num double) { n : Int // -2 ^ 31 ≤ n ∧ n < 2 ^ 31 } :=
  ⟨none, primCell doubleBytes, fun _ => 0, wholeDecimal, ⟨1, by decide⟩, gridName (ascii "double"), 1⟩

theorem double_name : newline ∉ gridName (ascii "double") ∧ checkType (gridName (ascii "double")) (gridName (ascii "double")) = .ok () := ⟨by decide, by decide⟩

/-- The spacing as a `double`. -/
noncomputable def spacing (n : { n : Int // -2 ^ 31 ≤ n ∧ n < 2 ^ 31 }) : Num double := Num.of double n.val

theorem spacing_one : spacing ⟨1, by decide⟩ = 1 := by
  show Num.of double ((1 : Int) : ℝ) = Num.of double 1
  rw [Int.cast_one]

theorem ring_room : Room 1 ((ring 1).serial 1) := by
  refine ⟨serial_wf (ring_ok 1 (Or.inl rfl)), rfl, by decide, fun j hj => ?_, fun j hj => ?_, fun j hj h => ?_⟩
  all_goals obtain rfl : j = 0 := by change j < 1 at hj; omega
  · exact ⟨fun h => BC.noConfusion h, fun h => BC.noConfusion h⟩
  · show (1 : Int) ≤ 1024 - 0
    decide
  · show (1 : Int) < 1024 - 0
    decide

theorem ring_spacing (j : Nat) : (ring 1).spacing doubles.dx0 j = ⟨1, by decide⟩ := by
  rcases j with - | j <;> rfl

/-- The line of 1024 nodes of `allen-cahn.cpp` 16-23: generated on four ranks, continued for 10^9 steps on two ranks, then 5 steps serially. -/
example (rand : Int → Nat → Int) (hrand : ∀ r n, 0 ≤ rand r n ∧ rand r n ≤ 2147483647) (junk : Int → Grids (Num double)) (new : Int → Int → Num double) :
    let ps : List (Sessions.Part (Num double)) := [⟨some 2, 1, 1000000000, junk⟩, ⟨none, 1, 5, junk⟩]
    (∃ file last, Begun doubles (ring 1) 1 (startValue 2147483647) rand new (some 4) file ∧ Chain doubles (ps.map (Sessions.Part.session 1 spacing (powRhs timesThree dt 1 1 1 1))) file last) ∧
    ∀ file last, Begun doubles (ring 1) 1 (startValue 2147483647) rand new (some 4) file → Chain doubles (ps.map (Sessions.Part.session 1 spacing (powRhs timesThree dt 1 1 1 1))) file last →
      ∃ G, Denotes doubles (ring 1) G last ∧ ∀ x, ((ring 1).serial 1).IsNode x → Unit (G x) := by
  intro ps
  refine every_file_unit (fmt := doubles) (m := ring 1) (ghosts := 1) (ranks := some 4) rfl (c := doubleBytes) rfl double_name.1 double_name.2 (ring_good rfl ⟨by decide, by decide⟩ rfl) ?_ ring_room (show 1 ≤ 3 by decide) (fun j => ?_)
    (timesThree_cube double_good) ⟨by decide, by decide⟩ hrand new (show ((ring 1).world 1 1 4).Ok 4 from ring_ok 1 (np := 4) (by decide)) (show 4 < 2 ^ 31 by decide) fun q hq => ?_
  · show 1024 * 8 + 16 * 1 + 16 < 2 ^ 31 - 1
    decide
  · rw [ring_spacing, spacing_one]
  · rcases List.mem_cons.1 hq with rfl | hq
    · exact ⟨ring_ok 1 (np := 2) (by decide), show 2 < 2 ^ 31 by decide, show (1 : Int) ≤ 1 by decide⟩
    · obtain rfl := List.mem_singleton.1 hq
      exact ⟨ring_ok 1 (np := 1) (by decide), show 1 < 2 ^ 31 by decide, show (1 : Int) ≤ 1 by decide⟩

/-- Generated serially, then 600 steps on two ranks and 400 on four: right to nine digits. -/
example (rand : Int → Nat → Int) (hrand : ∀ r n, 0 ≤ rand r n ∧ rand r n ≤ 32767) (junk : Int → Grids (Num double)) (new : Int → Int → Num double) (ps : List (Sessions.Part (Num double)))
    (hps : ps = [⟨some 2, 1, 600, junk⟩, ⟨some 4, 1, 400, junk⟩]) (file last : List Byte) (hfile : Begun doubles (ring 1) 1 (startValue 32767) rand new none file)
    (hlast : Chain doubles (ps.map (Sessions.Part.session 1 spacing (powRhs roundedCube dt 1 1 1 1))) file last) :
    ∃ (F G : (Nat → Int) → Num double) (τ τ' : Grids ℝ), Denotes doubles (ring 1) F file ∧ Denotes doubles (ring 1) G last ∧
      (∀ x, ((ring 1).serial 1).IsNode x → Is (F x) (cellAt ((ring 1).serial 1) (τ 0) x)) ∧
      serialRun ((ring 1).serial 1) (allenCahnUpdate 1 (fun _ => 1) (acRhs (1 / 100) 1 1 1 1) (ps.map Sessions.Part.steps).sum) τ = .ok τ' ∧
      ∀ x, ((ring 1).serial 1).IsNode x → ∃ v, Is (G x) v ∧ |v - cellAt ((ring 1).serial 1) (τ' 0) x| ≤ 1 / 10 ^ 9 := by
  refine last_file_right (fmt := doubles) (m := ring 1) (ghosts := 1) (ranks := none) rfl (c := doubleBytes) rfl double_name.1 double_name.2 (ring_good rfl ⟨by decide, by decide⟩ rfl) ?_ ring_room
    (show 1 ≤ 3 by decide) (fun j => ?_) (roundedCube_cube double_good) ⟨by decide, by decide⟩ hrand new (show ((ring 1).world 1 1 1).Ok 1 from ring_ok 1 (np := 1) (by decide))
    (show 1 < 2 ^ 31 by decide) (fun q hq => ?_) (by rw [hps]; simp) hfile hlast
  · show 1024 * 8 + 16 * 1 + 16 < 2 ^ 31 - 1
    decide
  · rw [ring_spacing, spacing_one]
  · subst hps
    rcases List.mem_cons.1 hq with rfl | hq
    · exact ⟨ring_ok 1 (np := 2) (by decide), show 2 < 2 ^ 31 by decide, show (1 : Int) ≤ 1 by decide⟩
    · obtain rfl := List.mem_singleton.1 hq
      exact ⟨ring_ok 1 (np := 4) (by decide), show 4 < 2 ^ 31 by decide, show (1 : Int) ≤ 1 by decide⟩

/-- Monte Carlo states, `rand()%3`, on four ranks. -/
example (rand : Int → Nat → Int) (hrand : ∀ r n, 0 ≤ rand r n) : (∃ file, Begun ints (ring 0) 1 (Generate.choice 3) rand (fun _ _ => 0) (some 4) file) ∧
    ∀ file, Begun ints (ring 0) 1 (Generate.choice 3) rand (fun _ _ => 0) (some 4) file → ∃ F, Denotes ints (ring 0) F file ∧ Scattered ints (ring 0) 1 (Generate.choice 3) rand (some 4) F := by
  refine begun (fmt := ints) (m := ring 0) (ghosts := 1) (ranks := some 4) ints_good (ring_good rfl ⟨by decide, by decide⟩ rfl) (show ((ring 0).world 1 1 4).Ok 4 from ring_ok 0 (np := 4) (by decide)) (show 4 < 2 ^ 31 by decide) ?_ (fun np e r hr => ?_)
    (fun r n => ?_) fun _ _ => ⟨le_rfl, by decide⟩
  · exact (bounded_fits (B := 4) rfl ints_good.cell ints_good.valid (fun v _ => by show 4 ≤ 4; decide) (serial_wf (ring_ok 0 (Or.inl rfl))) (show 1024 * 4 + 16 * 1 + 16 < 2 ^ 31 - 1 by decide)).1
  · obtain rfl := Option.some.inj e
    exact ring_writes rfl ints_good.cell ints_good.valid (fun v _ => by show 4 ≤ 1000; decide) 0 (by decide) hr
  · show 0 ≤ Int.tmod _ 3 ∧ Int.tmod _ 3 < 3
    exact ⟨Int.tmod_nonneg _ (hrand r n), Int.tmod_lt_of_pos _ (by decide)⟩

end MMSP.IeeeWhole
