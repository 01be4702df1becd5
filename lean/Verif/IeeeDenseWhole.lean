import Verif.IeeeDense
import Verif.IeeeWhole
/-!
# Property C119: grain growth and Zener pinning in doubles, from `generate` to the last restart

The programs of C118 run on files: read on any number of ranks, stepped, written, read again on another number of ranks (C97), with cells of `n` doubles of eight bytes each. The first file is that
of `generate` (C104, C105). `generate` of the Zener example leaves a third of its numbers uninitialised; what that does is part of the claim.
-/

namespace MMSP.IeeeDense

open Ghost FileIO ParallelRun Sessions GenerateRanks
open DensePF (pass)
open Generate (inside nParticles)
open Stencil
open Symmetry (Room wrap near_reach)
open Ieee Ieee.Num IeeeConfine

/-! ## Files that hold vectors of doubles -/

section
variable {D : Type} {fmt : Format (List (Num double)) D} {m : Meta D}

/-- The array of whoever reads such a file serially. -/
theorem held_array (hacc : checkType fmt.name fmt.name = .ok ()) {n : Nat} {F : (Nat → Int) → List (Num double)} (hF : ∀ x, (m.serial fmt.d).IsNode x → (F x).length = n) {file : List Byte}
    (h : Denotes fmt m F file) : ∃ a, Holds m fmt.d (fun _ v => v.length = n) F fun _ => a := by
  obtain ⟨a, ha⟩ := IeeeWhole.read_array hacc h
  refine ⟨fun o => if (a o).length = n then a o else List.replicate n 0, fun x hx => ?_, fun _ o _ _ => ?_⟩
  · unfold cellAt
    have e : a ((m.serial fmt.d).rawOffset x) = F x := ha x hx
    show (if (a ((m.serial fmt.d).rawOffset x)).length = n then a ((m.serial fmt.d).rawOffset x) else List.replicate n 0) = F x
    rw [if_pos (by rw [e]; exact hF x hx), e]
  · show (if (a o).length = n then a o else List.replicate n 0).length = n
    split_ifs with e
    · exact e
    · simp

theorem evolve_serial {V : Type} (g : Shape) (kern : Kernel V) (n : Nat) (σ : Grids V) :
    serialRun g (evolveUpdate kern n) σ = serialRun g (repeatProg [.loop 1 kern, .swap 0 1, .ghostswap 0] n) σ := by
  unfold evolveUpdate serialRun; rw [List.foldlM_cons]; rfl

/-- The sessions of a chain: `value` is the right-hand side, `conv` makes doubles of the spacings read from the file. -/
noncomputable def sessions (fmt : Format (List (Num double)) D) (m : Meta D) (conv : D → Num double) (value : List (Num double) → List (Num double) → Nat → Num double)
    (ps : List (Sessions.Part (List (Num double)))) : List (Session (List (Num double)) D) :=
  ps.map (Sessions.Part.call fun dx => evolveUpdate (isoKernel fmt.d m.fields.toNat (fun j => conv (dx j)) value))

variable (hcomp : fmt.comp = none) (hcell : fmt.cell = arrayCell doubleBytes) (hname : newline ∉ fmt.name)
  (hacc : checkType fmt.name fmt.name = .ok ()) (hm : m.Good fmt) (hfresh : (fmt.fresh m.fields).length = m.fields.toNat)
  (hsize : sites (m.serial fmt.d) * (4 + m.fields.toNat * 8) + 16 * fmt.d + 16 < 2 ^ 31 - 1) (hroom : Room 1 (m.serial fmt.d))
  (hdim : fmt.d ≤ 3) (hfields : m.fields.toNat ≤ 16) {conv : D → Num double} (hdx : ∀ j, conv (m.spacing fmt.dx0 j) = 1)
  {ps : List (Sessions.Part (List (Num double)))} (hps : Runs m fmt.d (fun v => v.length = m.fields.toNat) ps)
include hcomp hcell hname hacc hm hfresh hsize hdx hps

/-- A chain from a file, traced to one serial run. -/
theorem traced (value : List (Num double) → List (Num double) → Nat → Num double) {F : (Nat → Int) → List (Num double)} (hF : ∀ x, (m.serial fmt.d).IsNode x → (F x).length = m.fields.toNat)
    {file : List Byte} (hfile : Denotes fmt m F file) :
    ∃ σ σ' : Grids (List (Num double)), (∀ x, (m.serial fmt.d).IsNode x → cellAt (m.serial fmt.d) (σ 0) x = F x) ∧
      serialRun (m.serial fmt.d) (evolveUpdate (isoKernel fmt.d m.fields.toNat (fun _ => 1) value) (ps.map Sessions.Part.steps).sum) σ = .ok σ' ∧
      (∃ last, Chain fmt (sessions fmt m conv value ps) file last) ∧
      ∀ last, Chain fmt (sessions fmt m conv value ps) file last → Denotes fmt m (cellAt (m.serial fmt.d) (σ' 0)) last := by
  obtain ⟨a, ha⟩ := held_array hacc hF hfile
  obtain ⟨σ', e, h1, h2⟩ := isoDense_restarts hcomp hcell hname hacc hm hfresh hsize conv hps hfile ha value
  refine ⟨fun _ => a, σ', ha.value, ?_, h1, h2⟩
  rw [evolve_serial]
  rw [funext hdx] at e
  exact e

include hroom hdim hfields

/-- **C119.** From any file whose numbers are finite and between 0 and 1 every chain of restarts can be run to its end, and its last file (so every file on the way) holds finite numbers between 0 and
1; with Zener pinning the particles are those of the first file, bit for bit. -/
theorem chain_frac {cube : Num double → Num double} (hcube : Cubed cube) {F : (Nat → Int) → List (Num double)} (hF : ∀ x, (m.serial fmt.d).IsNode x → Fracs m.fields.toNat (F x)) {file : List Byte}
    (hfile : Denotes fmt m F file) :
    ((∃ last, Chain fmt (sessions fmt m conv (isoTerm cube dt m.fields.toNat) ps) file last) ∧
      ∀ last, Chain fmt (sessions fmt m conv (isoTerm cube dt m.fields.toNat) ps) file last → ∃ G, Denotes fmt m G last ∧ ∀ x, (m.serial fmt.d).IsNode x → Fracs m.fields.toNat (G x)) ∧
    (∃ last, Chain fmt (sessions fmt m conv (zenerTerm cube dt m.fields.toNat) ps) file last) ∧
      ∀ last, Chain fmt (sessions fmt m conv (zenerTerm cube dt m.fields.toNat) ps) file last →
        ∃ G, Denotes fmt m G last ∧ ∀ x, (m.serial fmt.d).IsNode x → Fracs m.fields.toNat (G x) ∧ (G x).head? = (F x).head? := by
  constructor
  · obtain ⟨σ, σ', h0, e, h1, h2⟩ := traced hcomp hcell hname hacc hm hfresh hsize hdx hps (isoTerm cube dt m.fields.toNat) (fun x hx => (hF x hx).1) hfile
    obtain ⟨⟨σ2, e2, hP⟩, -⟩ := shipped_frac hcube hroom hdim hfields (ps.map Sessions.Part.steps).sum (σ := σ) fun x hx => by rw [h0 x hx]; exact hF x hx
    obtain rfl := Outcome.ok.inj (e2.symm.trans e)
    exact ⟨h1, fun last hl => ⟨_, h2 last hl, hP⟩⟩
  · obtain ⟨σ, σ', h0, e, h1, h2⟩ := traced hcomp hcell hname hacc hm hfresh hsize hdx hps (zenerTerm cube dt m.fields.toNat) (fun x hx => (hF x hx).1) hfile
    obtain ⟨-, σ2, e2, hP, hQ⟩ := shipped_frac hcube hroom hdim hfields (ps.map Sessions.Part.steps).sum (σ := σ) fun x hx => by rw [h0 x hx]; exact hF x hx
    obtain rfl := Outcome.ok.inj (e2.symm.trans e)
    refine ⟨h1, fun last hl => ⟨_, h2 last hl, fun x hx => ⟨hP x hx, ?_⟩⟩⟩
    rw [← h0 x hx]
    exact hQ x hx

omit hdim hfields in
/-- **C119, grain interiors.** A node that had only cells of its own grain within as many hops as there are steps in all the sessions holds in the last file, bit for bit, what it held in the first. -/
theorem chain_interior {cube : Num double → Num double} (c1 : ∀ a, Is a 1 → Is (cube a) 1) (c0 : ∀ a, Is a 0 → Is (cube a) 0)
    {value : List (Num double) → List (Num double) → Nat → Num double} (hval : value = isoTerm cube dt m.fields.toNat ∨ value = zenerTerm cube dt m.fields.toNat)
    {F : (Nat → Int) → List (Num double)} (hF : ∀ x, (m.serial fmt.d).IsNode x → (F x).length = m.fields.toNat) {file last : List Byte} (hfile : Denotes fmt m F file)
    (hlast : Chain fmt (sessions fmt m conv value ps) file last) :
    ∃ G, Denotes fmt m G last ∧ ∀ v h, PureCell m.fields.toNat h v → ∀ x, (m.serial fmt.d).IsNode x → (∀ y, Ball (m.serial fmt.d) (ps.map Sessions.Part.steps).sum x y → F y = v) → G x = v := by
  obtain ⟨σ, σ', h0, e, h1, h2⟩ := traced hcomp hcell hname hacc hm hfresh hsize hdx hps value hF hfile
  refine ⟨_, h2 last hlast, fun v h hv x hx hb => ?_⟩
  obtain ⟨σ2, e2, hk⟩ := interior_kept double_good c1 c0 IeeeConfine.dt_is hroom (dx := fun _ => 1) (fun i hi => ⟨1, IeeeConfine.weight_one double_good⟩) hval hv (ps.map Sessions.Part.steps).sum
    (σ := σ) fun x hx => by rw [h0 x hx]; exact hF x hx
  obtain rfl := Outcome.ok.inj (e2.symm.trans e)
  have hnode : ∀ s x, (m.serial fmt.d).IsNode x → ∀ y, Ball (m.serial fmt.d) s x y → (m.serial fmt.d).IsNode y := by
    intro s
    induction s with
    | zero => rintro x hx y rfl; exact hx
    | succ s ih =>
      rintro x hx y (hy | ⟨i, hi, t, ht, hy⟩)
      · exact ih x hx y hy
      · exact ih _ (near_reach hroom.reach hx fun j _ => by unfold bump; by_cases e : j = i <;> simp [e]; omega) y hy
  exact hk x hx fun y hy => by rw [h0 y (hnode _ x hx y hy)]; exact hb y hy

/-- **C119, grain growth from nothing.** `generate` on any number of ranks, then any chain of restarts: it can be run to its end; the last file (so every file) holds finite numbers between 0 and 1,
and where all nodes within as many hops as there were steps began inside (outside) the grains it holds exactly `(0,1)` (exactly `(1,0)`). -/
theorem growth_whole {cube : Num double → Num double} (hcube : Cubed cube) (c1 : ∀ a, Is a 1 → Is (cube a) 1) (c0 : ∀ a, Is a 0 → Is (cube a) 0) (hfields2 : m.fields = 2) {ghosts : Int}
    {ranks : Option Nat} (hok : (m.world fmt.d ghosts (ranks.getD 1)).Ok (ranks.getD 1)) (hnp : ranks.getD 1 < 2 ^ 31) {new : Int → Int → List (Num double)} (hnew : ∀ r o, (new r o).length = 2) :
    (∃ first last, Started fmt m ghosts (isoNode fmt.d) new ranks first ∧ Chain fmt (sessions fmt m conv (isoTerm cube dt 2) ps) first last) ∧
    ∀ first last, Started fmt m ghosts (isoNode fmt.d) new ranks first → Chain fmt (sessions fmt m conv (isoTerm cube dt 2) ps) first last →
      ∃ G, Denotes fmt m G last ∧ ∀ x, (m.serial fmt.d).IsNode x → Fracs 2 (G x) ∧
        ((∀ y, Ball (m.serial fmt.d) (ps.map Sessions.Part.steps).sum x y → inside fmt.d y = true) → G x = [0, 1]) ∧
        ((∀ y, Ball (m.serial fmt.d) (ps.map Sessions.Part.steps).sum x y → inside fmt.d y = false) → G x = [1, 0]) := by
  have e2 : m.fields.toNat = 2 := by rw [hfields2]; rfl
  obtain ⟨⟨⟨first, h1⟩, h2⟩, -⟩ := dense_started hcomp hcell hname hacc hm hsize hok hnp (node := isoNode fmt.d) (F := fun x => if inside fmt.d x then [0, 1] else [1, 0])
    (fun x y h => by rw [inside_congr hm.dim h]) (fun x v h => by
      rw [hfields2] at h ⊢
      obtain ⟨a, b, rfl⟩ := List.length_eq_two.1 h
      unfold isoNode
      cases inside fmt.d x <;> exact ⟨rfl, rfl⟩) (new := new) (fun r o => by rw [e2]; exact hnew r o)
  have hF : ∀ x, (m.serial fmt.d).IsNode x → Fracs m.fields.toNat ((fun x => if inside fmt.d x then [0, 1] else [1, 0] : (Nat → Int) → List (Num double)) x) := fun x _ => by
    rw [e2]
    show Fracs 2 (if inside fmt.d x then [0, 1] else [1, 0])
    split_ifs
    · exact ⟨rfl, by simp [zero_frac, one_frac]⟩
    · exact ⟨rfl, by simp [zero_frac, one_frac]⟩
  have key := fun first h => chain_frac hcomp hcell hname hacc hm hfresh hsize hroom hdim hfields hdx hps hcube hF (h2 first h)
  rw [e2] at key
  obtain ⟨last, hl⟩ := (key first h1).1.1
  refine ⟨⟨first, last, h1, hl⟩, fun first last h1 hl => ?_⟩
  obtain ⟨G, hG, hx⟩ := (key first h1).1.2 last hl
  obtain ⟨G', hG', hi⟩ := chain_interior hcomp hcell hname hacc hm hfresh hsize hroom hdx hps c1 c0 (value := isoTerm cube dt 2) (.inl (by rw [e2])) (fun x hx => (hF x hx).1) (h2 first h1) hl
  have same : ∀ x, (m.serial fmt.d).IsNode x → G x = G' x := by
    obtain ⟨a, ha⟩ := IeeeWhole.read_array hacc hG
    obtain ⟨o, e, hs⟩ := hG .serial fmt.name hacc 0 le_rfl 1 0 ⟨le_rfl, by decide⟩
    obtain ⟨o', e', hs'⟩ := hG' .serial fmt.name hacc 0 le_rfl 1 0 ⟨le_rfl, by decide⟩
    obtain rfl := Outcome.ok.inj (e.symm.trans e')
    have eb : SameBox o.local_.shape (m.serial fmt.d) := ⟨hs.box.1, hs.box.2.1, hs.box.2.2.1, hs.box.2.2.2⟩
    exact fun x hx => (hs.value x ((eb.node x).2 hx)).symm.trans (hs'.value x ((eb.node x).2 hx))
  have i0 : Is (0 : Num double) 0 := is_zero
  have i1 : Is (1 : Num double) 1 := is_one double_good
  have p0 : PureCell (f := double) 2 0 [1, 0] := ⟨rfl, by decide, fun j hj => by interval_cases j <;> simpa⟩
  have p1 : PureCell (f := double) 2 1 [0, 1] := ⟨rfl, by decide, fun j hj => by interval_cases j <;> simpa⟩
  rw [e2] at hi
  refine ⟨G, hG, fun x hx' => ⟨hx x hx', fun hb => ?_, fun hb => ?_⟩⟩
  · rw [same x hx']
    exact hi _ 1 p1 x hx' fun y hy => by simp [hb y hy]
  · rw [same x hx']
    exact hi _ 0 p0 x hx' fun y hy => by simp [hb y hy]

end

/-! ## Numbers that are not finite -/

section
variable {f : Fmt}

theorem bad_ops (a : Num f) : a + .bad = .bad ∧ (.bad : Num f) + a = .bad ∧ a - .bad = .bad ∧ (.bad : Num f) - a = .bad ∧ a * .bad = .bad ∧ (.bad : Num f) * a = .bad := by
  cases a <;> exact ⟨rfl, rfl, rfl, rfl, rfl, rfl⟩

theorem foldl_bad {ι : Type} (term : ι → Num f) (is : List ι) {acc : Num f} (h : acc = .bad ∨ ∃ i ∈ is, term i = .bad) : is.foldl (fun a i => a + term i) acc = .bad := by
  induction is generalizing acc with
  | nil =>
    rcases h with h | ⟨i, hi, _⟩
    · exact h
    · simp at hi
  | cons i is ih =>
    rw [List.foldl_cons]
    refine ih ?_
    rcases h with rfl | ⟨k, hk, e⟩
    · exact .inl (bad_ops _).2.1
    · rcases List.mem_cons.1 hk with rfl | hk
      · left; rw [e]; exact (bad_ops _).1
      · exact .inr ⟨k, hk, e⟩

/-- The field, the sum of squares or the Laplacian is not finite: nor is the new value. -/
theorem isoTerm_bad (cube : Num f → Num f) (dt : Num f) {n : Nat} {l y : List (Num f)} {j : Nat} (h : y.getD j 0 = .bad ∨ l.getD j 0 = .bad ∨ squares n y = .bad) : isoTerm cube dt n l y j = .bad := by
  unfold isoTerm
  rcases h with h | h | h
  · rw [h]; exact (bad_ops _).2.2.2.1
  · rw [h]; simp only [bad_ops]
  · rw [h]; simp only [bad_ops]

theorem squares_bad {n : Nat} {y : List (Num f)} {j : Nat} (hj : j < n) (h : y.getD j 0 = .bad) : squares n y = .bad := by
  unfold squares
  refine foldl_bad (fun j => y.getD j 0 * y.getD j 0) _ (.inr ⟨j, List.mem_range.2 hj, ?_⟩)
  show y.getD j 0 * y.getD j 0 = _
  rw [h]
  rfl

theorem lapList_bad {g : Shape} {n j : Nat} (hj : j < n) {dx : Nat → Num f} {data : Int → List (Num f)} {x : Nat → Int} {i : Nat} (hi : i < g.dim) {t : Int} (ht : t = 1 ∨ t = -1)
    (h : (cellAt g data (wrap g (bump x i t))).getD j 0 = .bad) : (lapList g n dx data x).getD j 0 = .bad := by
  rw [lapList_getD g hj]
  refine foldl_bad (fun i => lapWeight (dx i) * ((cellAt g data (wrap g (bump x i 1))).getD j 0 - (1 + 1) * (cellAt g data x).getD j 0 + (cellAt g data (wrap g (bump x i (-1)))).getD j 0)) _
    (.inr ⟨i, List.mem_range.2 hi, ?_⟩)
  rcases ht with rfl | rfl <;> simp only [h, bad_ops]

/-- **C119, negative.** One number that is not finite, in a field that moves, spreads one hop per step, and one step later takes all the moving fields of the nodes it has reached. -/
theorem bad_spreads {cube : Num f → Num f} {dt : Num f} {g : Shape} (hroom : Room 1 g) {n : Nat} {dx : Nat → Num f} {value : List (Num f) → List (Num f) → Nat → Num f} {j : Nat} (hj : j < n)
    (hval : value = isoTerm cube dt n ∨ value = zenerTerm cube dt n ∧ j ≠ 0) (steps : Nat) {σ : Grids (List (Num f))} (hl : Compare.AllNodes g (fun v => v.length = n) (σ 0)) {y : Nat → Int}
    (hy : (cellAt g (σ 0) y).getD j 0 = .bad) :
    ∃ σ', serialRun g (evolveUpdate (isoKernel g.dim n dx value) (steps + 1)) σ = .ok σ' ∧
      ∀ x, g.IsNode x → Ball g steps x y → ∀ k, k < n → (k = 0 → value = isoTerm cube dt n) → (cellAt g (σ' 0) x).getD k 0 = .bad := by
  have term : ∀ {l y : List (Num f)} {k : Nat}, (k = 0 → value = isoTerm cube dt n) → (y.getD k 0 = .bad ∨ l.getD k 0 = .bad ∨ squares n y = .bad) → value l y k = .bad := by
    intro l y k hk h
    rcases hval with e | ⟨e, -⟩
    · rw [e]; exact isoTerm_bad cube dt h
    · by_cases k0 : k = 0
      · rw [hk k0]; exact isoTerm_bad cube dt h
      · rw [e]; unfold zenerTerm; rw [if_neg k0]; exact isoTerm_bad cube dt h
  have hj0 : j = 0 → value = isoTerm cube dt n := fun e => by
    rcases hval with h | ⟨-, h⟩
    · exact h
    · exact absurd e h
  have at_ : ∀ (w : Nat → Num f) k, k < n → ((List.range n).map w).getD k 0 = w k := fun w k hk => by simp [List.getD_eq_getElem?_getD, hk]
  simp only [evolve_serial]
  have key : ∀ s, ∃ σ', serialRun g (repeatProg [.loop 1 (isoKernel g.dim n dx value), .swap 0 1, .ghostswap 0] s) σ = .ok σ' ∧ Compare.AllNodes g (fun v => v.length = n) (σ' 0) ∧
      ∀ x, g.IsNode x → Ball g s x y → (cellAt g (σ' 0) x).getD j 0 = .bad := by
    intro s
    induction s with
    | zero => exact ⟨σ, rfl, hl, fun x _ h => by rw [← (show y = x from h)]; exact hy⟩
    | succ s ih =>
      obtain ⟨σ1, e1, h1, r1⟩ := ih
      obtain ⟨σ2, e2, h2⟩ := iso_one hroom dx value (n := n) (σ := σ1) h1
      refine ⟨σ2, by rw [repeatProg_succ, ParallelRun.serialRun_append, e1, Outcome.ok_bind, e2], fun x hx => by rw [h2 x hx]; simp, fun x hx h => ?_⟩
      rw [h2 x hx, at_ _ _ hj]
      rcases h with h | ⟨i, hi, t, ht, h⟩
      · exact term hj0 (.inl (r1 x hx h))
      · exact term hj0 (.inr (.inl (lapList_bad hj hi ht (r1 _ (near_reach hroom.reach hx fun j _ => by unfold bump; by_cases e : j = i <;> simp [e]; omega) h))))
  obtain ⟨σ1, e1, h1, r1⟩ := key steps
  obtain ⟨σ2, e2, h2⟩ := iso_one hroom dx value (n := n) (σ := σ1) h1
  refine ⟨σ2, by rw [repeatProg_succ, ParallelRun.serialRun_append, e1, Outcome.ok_bind, e2], fun x hx h k hk hk0 => ?_⟩
  rw [h2 x hx, at_ _ _ hk]
  exact term hk0 (.inr (.inr (squares_bad hj (r1 x hx h))))

end

/-! ## Zener pinning from `generate` -/

section
variable {D : Type} {fmt : Format (List (Num double)) D} {m : Meta D} (hcomp : fmt.comp = none) (hcell : fmt.cell = arrayCell doubleBytes) (hname : newline ∉ fmt.name)
  (hacc : checkType fmt.name fmt.name = .ok ()) (hm : m.Good fmt) (hfresh : (fmt.fresh m.fields).length = m.fields.toNat)
  (hsize : sites (m.serial fmt.d) * (4 + m.fields.toNat * 8) + 16 * fmt.d + 16 < 2 ^ 31 - 1) (hroom : Room 1 (m.serial fmt.d))
  {conv : D → Num double} (hdx : ∀ j, conv (m.spacing fmt.dx0 j) = 1)
  {ps : List (Sessions.Part (List (Num double)))} (hps : Runs m fmt.d (fun v => v.length = m.fields.toNat) ps) (hfields : m.fields = 3) {ghosts : Int} {np : Nat}
  (hok : (m.world fmt.d ghosts np).Ok np) (hnp : np < 2 ^ 31) (hper : Periodic (m.world fmt.d ghosts np)) (hgh : 1 ≤ ghosts) {rand : Int → Nat → Int} (hr : ∀ r j, 0 ≤ rand r j)
  {new : Int → Int → List (Num double)} (hnew : ∀ r o, (new r o).length = 3)
include hcomp hcell hname hacc hm hsize hfields hok hnp hper hgh hr hnew

/-- The file that `generate` of the Zener example leaves on `np` ranks. -/
theorem zener_first : ∃ writes, generateFile fmt m ghosts np (fun r => zener ((m.world fmt.d ghosts np).shape r) (denseNode fmt.d) denseMark (rand r) (new r)) = .ok writes ∧
      ∃ out F, (∀ W, W.Perm writes → ∀ i, written W i = out[i]?) ∧ Denotes fmt m F out ∧ ∀ r, IsRank np r → let g := (m.world fmt.d ghosts np).shape r; ∀ x, g.IsNode x →
        (Marked g (rand r) (nParticles g.nodes) x → F x = [1, 0, 0]) ∧
        (¬ Marked g (rand r) (nParticles g.nodes) x → F x = if inside fmt.d x then [0, 0, 1] else [0, 1, (cellAt g (new r) x).getD 2 0]) := by
  have e3 : m.fields.toNat = 3 := by rw [hfields]; rfl
  have hfmt : fmt.Good fun v => v.length = 3 := ⟨by rw [hcell]; exact vectorCell_roundTrips doubleBytes, by rw [hcomp]; rintro z ⟨⟩, hname, hacc, fun v h => by
    rw [hcell]; show v.length < 2 ^ 31; rw [h]; decide⟩
  refine dense_file hfmt hm hok hnp (fun r hr => ?_) hper hgh hr hnew
  refine bounded_fits hcomp hfmt.cell hfmt.valid (B := 4 + 3 * 8) (fun v h => by rw [hcell]; show 4 + v.length * 8 ≤ _; rw [h]) (shape_wf hok hr) ?_
  have := Nat.mul_le_mul_right (4 + 3 * 8) (sites_rank hok hr)
  rw [e3] at hsize
  show _ + 16 * fmt.d + 16 < _
  omega

include hfresh hroom hdx hps

/-- **C119, Zener pinning from nothing.** If the memory that `generate` leaves uninitialised happens to hold numbers between 0 and 1, every chain of restarts can be run to its end, its last file
(so every file) holds finite numbers between 0 and 1, and the first field is at every node still exactly 1 on particles and 0 elsewhere. -/
theorem zener_whole (hdim : fmt.d ≤ 3) {cube : Num double → Num double} (hcube : Cubed cube) (hmem : ∀ r o, Frac ((new r o).getD 2 0)) :
    ∃ writes, generateFile fmt m ghosts np (fun r => zener ((m.world fmt.d ghosts np).shape r) (denseNode fmt.d) denseMark (rand r) (new r)) = .ok writes ∧
      ∃ first, (∀ W, W.Perm writes → ∀ i, written W i = first[i]?) ∧ (∃ last, Chain fmt (sessions fmt m conv (zenerTerm cube dt 3) ps) first last) ∧
        ∀ last, Chain fmt (sessions fmt m conv (zenerTerm cube dt 3) ps) first last → ∃ G, Denotes fmt m G last ∧ ∀ r, IsRank np r →
          let g := (m.world fmt.d ghosts np).shape r; ∀ x, g.IsNode x → Fracs 3 (G x) ∧
            (Marked g (rand r) (nParticles g.nodes) x → (G x).head? = some 1) ∧ (¬ Marked g (rand r) (nParticles g.nodes) x → (G x).head? = some 0) := by
  have e3 : m.fields.toNat = 3 := by rw [hfields]; rfl
  obtain ⟨writes, hw, first, F, hW, hd, hF⟩ := zener_first hcomp hcell hname hacc hm hsize hfields hok hnp hper hgh hr hnew
  have hFrac : ∀ x, (m.serial fmt.d).IsNode x → Fracs m.fields.toNat (F x) := fun x hx => by
    rw [e3]
    obtain ⟨r, ⟨h0, h1, hn⟩, -⟩ := Decomp.partition (np := np) hok.setup.grid hok.setup.box (x := x) hx
    obtain ⟨a, b⟩ := hF r ⟨h0, h1⟩ x hn
    by_cases hmk : Marked ((m.world fmt.d ghosts np).shape r) (rand r) (nParticles ((m.world fmt.d ghosts np).shape r).nodes) x
    · rw [a hmk]; exact ⟨rfl, by simp [zero_frac, one_frac]⟩
    · rw [b hmk]
      split_ifs
      · exact ⟨rfl, by simp [zero_frac, one_frac]⟩
      · refine ⟨rfl, fun q hq => ?_⟩
        simp only [List.mem_cons, List.not_mem_nil, or_false] at hq
        rcases hq with rfl | rfl | rfl
        · exact zero_frac
        · exact one_frac
        · exact hmem _ _
  have key := (chain_frac hcomp hcell hname hacc hm hfresh hsize hroom hdim (by omega) hdx hps hcube hFrac hd).2
  rw [e3] at key
  refine ⟨writes, hw, first, hW, key.1, fun last hl => ?_⟩
  obtain ⟨G, hG, hx⟩ := key.2 last hl
  refine ⟨G, hG, fun r hr x hn => ?_⟩
  obtain ⟨g1, g2⟩ := hx x (Ghost.isNode_global hok.setup hr hn)
  obtain ⟨a, b⟩ := hF r hr x hn
  refine ⟨g1, fun hmk => by rw [g2, a hmk]; rfl, fun hmk => ?_⟩
  rw [g2, b hmk]
  split_ifs <;> rfl

/-- **C119, negative.** If one of the numbers left uninitialised is not finite (at a node outside the grains that no particle covers), then after `k + 1` steps, in however many sessions, both moving
fields are not finite in the file at every node within `k` hops. -/
theorem zener_garbage (cube : Num double → Num double) {k : Nat} (hk : (ps.map Sessions.Part.steps).sum = k + 1) {r : Int} (hrank : IsRank np r) {y : Nat → Int}
    (hy : ((m.world fmt.d ghosts np).shape r).IsNode y) (hout : inside fmt.d y = false)
    (hfree : ¬ Marked ((m.world fmt.d ghosts np).shape r) (rand r) (nParticles ((m.world fmt.d ghosts np).shape r).nodes) y)
    (hbad : (cellAt ((m.world fmt.d ghosts np).shape r) (new r) y).getD 2 0 = .bad) :
    ∃ writes, generateFile fmt m ghosts np (fun r => zener ((m.world fmt.d ghosts np).shape r) (denseNode fmt.d) denseMark (rand r) (new r)) = .ok writes ∧
      ∃ first, (∀ W, W.Perm writes → ∀ i, written W i = first[i]?) ∧ (∃ last, Chain fmt (sessions fmt m conv (zenerTerm cube dt 3) ps) first last) ∧
        ∀ last, Chain fmt (sessions fmt m conv (zenerTerm cube dt 3) ps) first last → ∃ G, Denotes fmt m G last ∧
          ∀ x, (m.serial fmt.d).IsNode x → Ball (m.serial fmt.d) k x y → (G x).getD 1 0 = .bad ∧ (G x).getD 2 0 = .bad := by
  have e3 : m.fields.toNat = 3 := by rw [hfields]; rfl
  obtain ⟨writes, hw, first, F, hW, hd, hF⟩ := zener_first hcomp hcell hname hacc hm hsize hfields hok hnp hper hgh hr hnew
  have hlen : ∀ x, (m.serial fmt.d).IsNode x → (F x).length = m.fields.toNat := fun x hx => by
    rw [e3]
    obtain ⟨r, ⟨h0, h1, hn⟩, -⟩ := Decomp.partition (np := np) hok.setup.grid hok.setup.box (x := x) hx
    obtain ⟨a, b⟩ := hF r ⟨h0, h1⟩ x hn
    by_cases hmk : Marked ((m.world fmt.d ghosts np).shape r) (rand r) (nParticles ((m.world fmt.d ghosts np).shape r).nodes) x
    · rw [a hmk]; rfl
    · rw [b hmk]; split_ifs <;> rfl
  obtain ⟨σ, σ', h0, e, h1, h2⟩ := traced hcomp hcell hname hacc hm hfresh hsize hdx hps (zenerTerm cube dt 3) hlen hd
  have hynode := Ghost.isNode_global hok.setup hrank hy
  have hyb : (cellAt (m.serial fmt.d) (σ 0) y).getD 2 0 = .bad := by
    rw [h0 y hynode, (hF r hrank y hy).2 hfree, hout]
    exact hbad
  rw [hk, e3] at e
  obtain ⟨σ2, e2, hs⟩ := bad_spreads (cube := cube) (dt := dt) hroom (n := 3) (dx := fun _ => 1) (value := zenerTerm cube dt 3) (j := 2) (by decide) (.inr ⟨rfl, by decide⟩) k (σ := σ)
    (fun x hx => by show (cellAt _ (σ 0) x).length = 3; rw [h0 x hx, hlen x hx, e3]) hyb
  obtain rfl := Outcome.ok.inj (e2.symm.trans e)
  exact ⟨writes, hw, first, hW, h1, fun last hl => ⟨_, h2 last hl, fun x hx hb => ⟨hs x hx hb 1 (by decide) (fun h => absurd h (by decide)), hs x hx hb 2 (by decide) (fun h => absurd h (by decide))⟩⟩⟩

end

/-! ## Examples -/

/-- `grid<1,vector<double> >` -/
noncomputable def vectorsOfDoubles : Format (List (Num double)) { n : Int // -2 ^ 31 ≤ n ∧ n < 2 ^ 31 } :=
  ⟨none, arrayCell doubleBytes, fun n => List.replicate n.toNat 0, wholeDecimal, ⟨1, by decide⟩, gridName (ascii "vector:double"), 1⟩

theorem vectors_name : newline ∉ vectorsOfDoubles.name ∧ checkType vectorsOfDoubles.name vectorsOfDoubles.name = .ok () := ⟨by decide, by decide⟩

theorem line_room (n : Int) : Room 1 ((ring n).serial 1) := by
  refine ⟨serial_wf (ring_ok n (Or.inl rfl)), rfl, by decide, fun j hj => ?_, fun j hj => ?_, fun j hj h => ?_⟩
  all_goals obtain rfl : j = 0 := by change j < 1 at hj; omega
  · exact ⟨fun h => BC.noConfusion h, fun h => BC.noConfusion h⟩
  · show (1 : Int) ≤ 1024 - 0
    decide
  · show (1 : Int) < 1024 - 0
    decide

theorem line_spacing (n : Int) (j : Nat) : IeeeWhole.spacing ((ring n).spacing vectorsOfDoubles.dx0 j) = 1 := by
  have : (ring n).spacing vectorsOfDoubles.dx0 j = ⟨1, by decide⟩ := by rcases j with - | j <;> rfl
  rw [this, IeeeWhole.spacing_one]

theorem line_runs (n : Int) (np : Nat) (hnp : np = 1 ∨ np = 2 ∨ np = 4) (steps : Nat) : Runs (ring n) 1 (fun v => v.length = n.toNat)
    [(⟨some np, 1, steps, fun _ _ _ => List.replicate n.toNat .bad⟩ : Sessions.Part (List (Num double)))] := by
  intro q hq
  obtain rfl := List.mem_singleton.1 hq
  exact ⟨ring_ok n hnp, (by rcases hnp with rfl | rfl | rfl <;> decide : np < 2 ^ 31), show (1 : Int) ≤ 1 by decide, fun _ _ _ => by simp⟩

/-- Grain growth on the line of 1024 nodes: generated on four ranks in memory full of NaN, then 10^9 steps on two ranks. -/
example : let ps : List (Sessions.Part (List (Num double))) := [⟨some 2, 1, 1000000000, fun _ _ _ => List.replicate (2 : Int).toNat .bad⟩]
    ∃ first last, Started vectorsOfDoubles (ring 2) 1 (isoNode 1) (fun _ _ => [.bad, .bad]) (some 4) first ∧
      Chain vectorsOfDoubles (sessions vectorsOfDoubles (ring 2) IeeeWhole.spacing (isoTerm timesThree dt 2) ps) first last ∧
      ∃ G, Denotes vectorsOfDoubles (ring 2) G last ∧ ∀ x, ((ring 2).serial 1).IsNode x → Fracs 2 (G x) := by
  intro ps
  obtain ⟨⟨first, last, h1, h2⟩, h3⟩ := growth_whole (fmt := vectorsOfDoubles) (m := ring 2) rfl rfl vectors_name.1 vectors_name.2 (ring_good rfl ⟨by decide, by decide⟩ rfl) rfl
    (by show 1024 * (4 + 2 * 8) + 16 * 1 + 16 < 2 ^ 31 - 1; decide) (line_room 2) (show 1 ≤ 3 by decide) (show 2 ≤ 16 by decide) (conv := IeeeWhole.spacing) (line_spacing 2) (ps := ps)
    (line_runs 2 2 (by decide) 1000000000) (timesThree_cubed double_good).1 (timesThree_cubed double_good).2.1 (timesThree_cubed double_good).2.2 rfl (ghosts := 1) (ranks := some 4)
    (ring_ok 2 (np := 4) (by decide)) (show 4 < 2 ^ 31 by decide) (new := fun _ _ => [.bad, .bad]) (fun _ _ => rfl)
  obtain ⟨G, hG, hx⟩ := h3 first last h1 h2
  exact ⟨first, last, h1, h2, G, hG, fun x h => (hx x h).1⟩

/-- Zener pinning generated on four ranks in zeroed memory, then 1000 steps on two ranks. -/
example (rand : Int → Nat → Int) (hr : ∀ r j, 0 ≤ rand r j) : let ps : List (Sessions.Part (List (Num double))) := [⟨some 2, 1, 1000, fun _ _ _ => List.replicate (3 : Int).toNat .bad⟩]
    ∃ first last, Chain vectorsOfDoubles (sessions vectorsOfDoubles (ring 3) IeeeWhole.spacing (zenerTerm roundedCube dt 3) ps) first last ∧
      ∃ G, Denotes vectorsOfDoubles (ring 3) G last ∧ ∀ r, IsRank 4 r → ∀ x, (((ring 3).world 1 1 4).shape r).IsNode x → Fracs 3 (G x) := by
  intro ps
  obtain ⟨_, -, first, -, ⟨last, h⟩, h3⟩ := zener_whole (fmt := vectorsOfDoubles) (m := ring 3) rfl rfl vectors_name.1 vectors_name.2 (ring_good rfl ⟨by decide, by decide⟩ rfl) rfl
    (by show 1024 * (4 + 3 * 8) + 16 * 1 + 16 < 2 ^ 31 - 1; decide) (line_room 3) (conv := IeeeWhole.spacing) (line_spacing 3) (ps := ps) (line_runs 3 2 (by decide) 1000) rfl (ghosts := 1) (np := 4)
    (ring_ok 3 (np := 4) (by decide)) (by decide) (ring_periodic 3 4) (by decide) hr (new := fun _ _ => [.bad, .bad, 0]) (fun _ _ => rfl) (show 1 ≤ 3 by decide) (roundedCube_cubed double_good).1
    fun _ _ => zero_frac
  obtain ⟨G, hG, hx⟩ := h3 last h
  exact ⟨first, last, h, G, hG, fun r hr x hn => (hx r hr x hn).1⟩

/-- `generate` on one rank in memory full of NaN, with all random numbers 0: the only particle covers nodes 0 and 1. Node 10 is outside the grains; after 601 steps both moving fields of all nodes
within 600 hops are NaN. -/
example : let ps : List (Sessions.Part (List (Num double))) := [⟨some 2, 1, 601, fun _ _ _ => List.replicate (3 : Int).toNat .bad⟩]
    ∃ first last, Chain vectorsOfDoubles (sessions vectorsOfDoubles (ring 3) IeeeWhole.spacing (zenerTerm roundedCube dt 3) ps) first last ∧
      ∃ G, Denotes vectorsOfDoubles (ring 3) G last ∧ ∀ x, ((ring 3).serial 1).IsNode x → Ball ((ring 3).serial 1) 600 x (fun _ => 10) → (G x).getD 1 0 = .bad ∧ (G x).getD 2 0 = .bad := by
  intro ps
  obtain ⟨_, -, first, -, ⟨last, h⟩, h3⟩ := zener_garbage (fmt := vectorsOfDoubles) (m := ring 3) rfl rfl vectors_name.1 vectors_name.2 (ring_good rfl ⟨by decide, by decide⟩ rfl) rfl
    (by show 1024 * (4 + 3 * 8) + 16 * 1 + 16 < 2 ^ 31 - 1; decide) (line_room 3) (conv := IeeeWhole.spacing) (line_spacing 3) (ps := ps) (line_runs 3 2 (by decide) 601) rfl (ghosts := 1) (np := 1)
    (ring_ok 3 (np := 1) (by decide)) (by decide) (ring_periodic 3 1) (by decide) (rand := fun _ _ => 0) (fun _ _ => le_rfl) (new := fun _ _ => [.bad, .bad, .bad]) (fun _ _ => rfl) roundedCube
    (k := 600) rfl (r := 0) ⟨le_rfl, by decide⟩ (y := fun _ => 10) (fun j hj => by
      obtain rfl : j = 0 := by change j < 1 at hj; omega
      decide) (by decide) (by
      rintro ⟨j, -, hj⟩
      have h0 : centre (((ring 3).world 1 1 1).shape 0) (fun _ => 0) 0 0 = 0 := by decide +kernel
      have h1 : (10 : Int) ≤ centre (((ring 3).world 1 1 1).shape 0) (fun _ => 0) 0 0 + 1 := (hj 0 (by decide)).2
      omega) rfl
  obtain ⟨G, hG, hx⟩ := h3 last h
  exact ⟨first, last, h, G, hG, hx⟩

end MMSP.IeeeDense
