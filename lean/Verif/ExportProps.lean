import Verif.Export
import Verif.ToolProps
import Verif.TsvProps
import Verif.VtkProps
import Verif.CloudProps
import Verif.ImageProps
import Verif.ConvertFileProps
import Verif.IeeeWhole
/-!
# Property C115: what the export tools show of a run
-/

namespace MMSP.Export

open FileIO Tool Sessions Voxel Ghost ParallelRun
open Stencil (gridAt)

variable {T D : Type}

/-! ## Grids that a tool cannot distinguish -/

/-- The same limits, faces, fields and spacings, and the same cells at all nodes. Whatever stands in memory elsewhere may differ. -/
structure Same (a b : Grid T D) : Prop where
  dim : a.shape.dim = b.shape.dim
  x0 : a.shape.x0 = b.shape.x0
  x1 : a.shape.x1 = b.shape.x1
  ghosts : a.shape.ghosts = 0 ∧ b.shape.ghosts = 0
  lower : ∀ j, j < b.shape.dim → a.shape.b0 j = b.shape.b0 j
  upper : ∀ j, j < b.shape.dim → a.shape.b1 j = b.shape.b1 j
  fields : a.fields = b.fields
  dx : a.dx = b.dx
  data : ∀ n, 0 ≤ n → n < b.shape.nodes → a.data n = b.data n

namespace Same
variable {a b : Grid T D} (h : Same a b)
include h

theorem box : SameBox a.shape b.shape := ⟨h.dim, h.x0, h.x1, h.ghosts.1.trans h.ghosts.2.symm⟩

theorem cells : a.shape.cells = b.shape.cells := sameBox_cells h.box

theorem nodes : a.shape.nodes = b.shape.nodes := by
  rw [← Convert.cells_eq h.ghosts.1, ← Convert.cells_eq h.ghosts.2, h.cells]

theorem position : a.shape.position = b.shape.position := by
  unfold Shape.position Shape.xx
  rw [h.dim, h.x0, h.x1]

theorem deref (p : Int) : deref a.shape a.data p = deref b.shape b.data p := by
  unfold MMSP.deref
  rw [h.cells]
  split
  · next hp =>
    rw [Convert.cells_eq h.ghosts.2] at hp
    rw [h.data p hp.1 hp.2]
  · rfl

theorem atVec : a.shape.atVec .serial = b.shape.atVec .serial := by
  funext x
  unfold Shape.atVec Shape.sx Shape.s0 Shape.s1
  rw [h.dim, h.x0, h.x1, h.ghosts.1, h.ghosts.2]
  apply Finset.sum_congr rfl
  intro j hj
  rw [h.lower j (Finset.mem_range.1 hj), h.upper j (Finset.mem_range.1 hj)]

theorem gridAt : gridAt .serial a.shape a.data = gridAt .serial b.shape b.data := by
  funext x
  unfold Stencil.gridAt
  rw [h.atVec, h.deref]

theorem map {U E : Type} (f : T → U) (k : D → E) : Same (a.map f k) (b.map f k) :=
  ⟨h.dim, h.x0, h.x1, h.ghosts, h.lower, h.upper, h.fields, funext fun j => congrArg k (congrFun h.dx j), fun n h0 h1 => congrArg f (h.data n h0 h1)⟩

theorem tsv (text : D → Int → List Byte) (values : Int → T → Outcome (List (List Byte))) : tsv text values a = tsv text values b := by
  unfold Export.tsv Tsv.convert
  simp only [h.nodes, h.deref, h.position, h.dim, h.dx, h.fields, Shape.atNode]

theorem vti {E : Type} (one : D) (comps : Int → Nat) (values : T → Outcome (List E)) : vti one comps values a = vti one comps values b := by
  have hl : Vtk.low a.shape = Vtk.low b.shape := by funext j; unfold Vtk.low; rw [h.dim, h.x0]
  have hh : Vtk.high a.shape = Vtk.high b.shape := by funext j; unfold Vtk.high; rw [h.dim, h.x1]
  have hp : Vtk.paint a.shape values a.data = Vtk.paint b.shape values b.data := by
    funext m x; unfold Vtk.paint; rw [h.gridAt]
  unfold Export.vti Vtk.fieldToVtk Vtk.visited Vtk.alloc
  rw [hl, hh, hp, h.dim, h.dx, h.fields]

end Same

section Field
variable {α : Type} [Field α] [LinearOrder α]

theorem Same.png [FloorRing α] {a b : Grid T D} (h : Same a b) (scale value : Int → T → Outcome α) (mark : Nat → T → α → Nat → Outcome Nat) (zoomin zoomax : α)
    (sliceaxis slicelevel : Int) (invert : Bool) : png scale value mark zoomin zoomax sliceaxis slicelevel invert a = png scale value mark zoomin zoomax sliceaxis slicelevel invert b := by
  have hv : Image.visited a.shape = Image.visited b.shape := by funext j k; unfold Image.visited; rw [h.dim, h.x0, h.x1]
  have hr : ∀ v : T → Outcome α, Image.range a.shape v a.data = Image.range b.shape v b.data := by
    intro v; funext p q; unfold Image.range; simp only [h.nodes, h.deref, Shape.atNode]
  have hp : ∀ (v : T → Outcome α) mk m, Image.paint a.shape v mk a.data m = Image.paint b.shape v mk b.data m := by
    intro v mk m; funext s x; unfold Image.paint; rw [h.gridAt]
  unfold Export.png Image.mmsp2png Image.fieldToPng
  simp only [hv, hr, hp, h.dim, h.x0, h.x1, h.fields]

theorem cloud_same {a b : Grid T α} (h : Same a b) (levels : List α) (tol : α) (other : T → Outcome Unit) (value : T → Outcome α) (normals : (Nat → Int) → Outcome (List α)) :
    Cloud.cloud a.shape a.dx levels tol other value normals a.data = Cloud.cloud b.shape b.dx levels tol other value normals b.data := by
  unfold Cloud.cloud
  simp only [h.nodes, h.deref, h.position, h.dim, h.dx, Shape.atNode]

theorem Same.xyz {a b : Grid α α} (h : Same a b) (mode : Nat) (normal : Bool) (levels : List α) (tol : α) (junk : List α) :
    xyz mode normal levels tol junk a = xyz mode normal levels tol junk b := by
  unfold Export.xyz Cloud.scalars Stencil.gradient
  rw [cloud_same h]
  simp only [h.gridAt, h.dim, h.dx]

theorem Same.xyzVector {a b : Grid (List α) α} (h : Same a b) (mode : Nat) (normal : Bool) (levels : List α) (lvlfield : Int) (tol : α) (fieldset : List Int) :
    xyzVector mode normal levels lvlfield tol fieldset a = xyzVector mode normal levels lvlfield tol fieldset b := by
  unfold Export.xyzVector Cloud.vectors
  rw [cloud_same h, h.fields]

theorem Same.xyzSparse {a b : Grid (Sparse.Cell α) α} (h : Same a b) (mode : Nat) (normal : Bool) (levels : List α) (lvlfield : Int) (tol : α) (fieldset : List Int) :
    xyzSparse mode normal levels lvlfield tol fieldset a = xyzSparse mode normal levels lvlfield tol fieldset b := by
  unfold Export.xyzSparse Cloud.sparses
  rw [cloud_same h]

end Field

/-! ## Opening the file -/

/-- The field `F` in the memory of a serial program. -/
def held (fmt : Format T D) (m : Meta D) (F : (Nat → Int) → T) : Grid T D := ⟨m.serial fmt.d, m.fields, m.spacing fmt.dx0, fun n => F ((m.serial fmt.d).position n)⟩

theorem checkType_plain {nm type : List Byte} (hplain : ¬ ascii "grid:scalar" <+: nm) (h : checkType nm type = .ok ()) : type = nm := by
  unfold checkType at h
  split at h
  · cases h
  · next k hk =>
    dsimp only at h
    by_contra hne
    have hs : ¬ (type ≠ nm ∧ ascii "grid:scalar" ++ type.drop k = nm) := fun h3 => hplain ⟨_, h3.2⟩
    rw [if_neg hs, if_pos hne] at h
    cases h

theorem input_line {comp : Option Zlib} {c : Cell T} {fresh : Int → T} {dec : Decimal D} {dx0 : D} {bd : Build} {mine : List Byte} {d : Nat} {ghosts : Int} {np : Nat} {rank : Int}
    {file : List Byte} {o : GridObject T D} (h : input comp c fresh dec dx0 bd mine d ghosts np rank file = .ok o) :
    checkType mine (getline file).1 = .ok () ∧ ∃ rest, extractInt (getline file).2 = some ((d : Int), rest) := by
  unfold input inputHeader at h
  dsimp only at h
  cases hc : checkType mine (getline file).1 with
  | ub => rw [hc] at h; cases h
  | abort k => rw [hc] at h; cases h
  | ok u =>
    refine ⟨rfl, ?_⟩
    rw [hc, Outcome.ok_bind] at h
    cases he : extractInt (getline file).2 with
    | none => rw [he] at h; cases h
    | some r =>
      rw [he] at h
      dsimp only at h
      by_cases hr : r.1 = (d : Int)
      · exact ⟨r.2, by rw [← hr]⟩
      · rw [if_pos hr] at h; cases h

/-- What the type line must be for the tool: one of the supported types (C60) but `scalar<T>`. -/
structure Opens (tool : Prog) (name : List Byte) : Prop where
  pvd : tool ≠ .pvd
  line : ∃ cell, open' tool name = .ok cell
  self : checkType name name = .ok ()
  plain : ¬ ascii "grid:scalar" <+: name

/-- A tool that opens the file of any run has the field in its memory. -/
theorem opened {tool : Prog} {fin : Nat → Format T D} {d : Nat} (hd : 1 ≤ d ∧ d ≤ 3) (hfd : (fin d).d = d) (hopen : Opens tool (fin d).name) {m : Meta D}
    (hbox : ∀ j, j < d → m.g0 j < m.g1 j) {F : (Nat → Int) → T} {file : List Byte} (h : Denotes (fin d) m F file) :
    ∃ o, openFile tool fin file = .ok o ∧ Same o (held (fin d) m F) := by
  obtain ⟨cell, hcell⟩ := hopen.line
  unfold open' at hcell
  split at hcell
  · cases hcell
  next hgrid =>
  split at hcell
  · cases hcell
  next e he =>
  dsimp only at hcell
  split at hcell
  · cases hcell
  next hxyz =>
  rw [if_neg hopen.pvd] at hcell
  have hacc : checkType (gridName (prefixOf tool (fin d).name ++ e)) (fin d).name = .ok () := by
    cases hc : checkType (gridName (prefixOf tool (fin d).name ++ e)) (fin d).name with
    | ok u => rfl
    | ub => rw [hc] at hcell; cases hcell
    | abort k => rw [hc] at hcell; cases hcell
  obtain ⟨o', i', -⟩ := h .serial (fin d).name hopen.self 1 (by decide) 1 0 ⟨by decide, by decide⟩
  obtain ⟨o, i, s⟩ := h .serial _ hacc 1 (by decide) 1 0 ⟨by decide, by decide⟩
  have hline := checkType_plain hopen.plain (input_line i').1
  obtain ⟨rest, hdim⟩ := (input_line i').2
  rw [hfd] at hdim i
  have hshape := s.box
  rw [hfd] at hshape
  obtain ⟨b1, b2, b3, b4⟩ := hshape
  have b1 : o.local_.shape.dim = d := b1
  have b2 : o.local_.shape.x0 = m.g0 := b2
  have b3 : o.local_.shape.x1 = m.g1 := b3
  have b4 : o.local_.shape.ghosts = 0 := b4
  have hwf : o.local_.shape.Wf := ⟨by omega, fun j hj => by rw [b2, b3]; exact hbox j (by omega), by omega⟩
  have hpart := s.faces ⟨m.g0, fun j hj => by rw [b2, b3]; exact ⟨le_rfl, hbox j (by omega)⟩⟩
  have hsame : SameBox o.local_.shape (m.serial d) := ⟨b1, b2, b3, b4⟩
  refine ⟨⟨o.local_.shape, o.fields, o.dx, o.local_.data⟩, ?_, ?_⟩
  · unfold openFile
    dsimp only
    rw [hline, if_neg hgrid, he]
    dsimp only
    simp only [extract, hdim]
    rw [if_neg (by omega), if_neg hxyz, Int.toNat_natCast, i, Outcome.ok_bind]
  · unfold held
    rw [hfd]
    refine ⟨b1, b2, b3, ⟨b4, rfl⟩, fun j hj => ?_, fun j hj => ?_, s.fields, s.dx, fun n h0 h1 => ?_⟩
    · show o.local_.shape.b0 j = m.B0 j
      rw [hpart.lower j (by rw [hfd]; exact hj), b2, if_neg (by simp)]
    · show o.local_.shape.b1 j = m.B1 j
      rw [hpart.upper j (by rw [hfd]; exact hj), b3, if_neg (by simp)]
    · show o.local_.data n = F ((m.serial d).position n)
      have hp : o.local_.shape.position = (m.serial d).position := by unfold Shape.position Shape.xx; rw [b1, b2, b3]; rfl
      have hn : o.local_.shape.nodes = (m.serial d).nodes := by unfold Shape.nodes Shape.xx; rw [b1, b2, b3]; rfl
      have h1' : n < o.local_.shape.nodes := by rw [hn]; exact h1
      have hnode := Shape.position_isNode hwf h0 h1'
      rw [← hp, ← s.value _ hnode]
      unfold cellAt
      have := ParallelRun.atNode_raw (bd := .serial) hwf (fun _ => b4) h0 h1'
      rw [← this]
      rfl

/-! ## What the tools show -/

section Files
variable {fin : Nat → Format T D} {d : Nat} (hd : 1 ≤ d ∧ d ≤ 3) (hfd : (fin d).d = d) {m : Meta D} (hbox : ∀ j, j < d → m.g0 j < m.g1 j) {F : (Nat → Int) → T} {file : List Byte}
  (h : Denotes (fin d) m F file)

theorem serial_wf (hd : 1 ≤ d ∧ d ≤ 3) (hbox : ∀ j, j < d → m.g0 j < m.g1 j) : (m.serial d).Wf := ⟨hd.1, hbox, le_rfl⟩

include hd hfd hbox h

/-- **C115.** The tools cannot see who wrote the file, on how many ranks: they show what they would show of the same field in the memory of a serial program. `draw` is any program whose
result depends on the nodes only, as those of all four tools do (`Same.tsv`, `Same.vti`, `Same.png`, `Same.xyz`, `Same.xyzVector`, `Same.xyzSparse`, also behind `Same.map`). -/
theorem export_eq {R : Type} {tool : Prog} (hopen : Opens tool (fin d).name) (draw : Grid T D → Outcome R) (hdraw : ∀ a b, Same a b → draw a = draw b) :
    (openFile tool fin file).bind draw = draw (held (fin d) m F) := by
  obtain ⟨o, e, hs⟩ := opened hd hfd hopen hbox h
  rw [e, Outcome.ok_bind, hdraw _ _ hs]

omit hd hbox in
/-- The field does not depend on coordinates that do not exist. -/
theorem field_congr {tool : Prog} (hopen : Opens tool (fin d).name) {x y : Nat → Int} (hx : (m.serial d).IsNode x) (hxy : ∀ j, j < d → y j = x j) : F y = F x := by
  obtain ⟨o, -, s⟩ := h .serial (fin d).name hopen.self 1 (by decide) 1 0 ⟨by decide, by decide⟩
  obtain ⟨b1, b2, b3, b4⟩ := s.box
  rw [hfd] at b1 b2 b3
  have b1 : o.local_.shape.dim = d := b1
  have b2 : o.local_.shape.x0 = m.g0 := b2
  have b3 : o.local_.shape.x1 = m.g1 := b3
  have hx' : o.local_.shape.IsNode x := by intro j hj; rw [b2, b3]; exact hx j (by rw [b1] at hj; exact hj)
  have hy' : o.local_.shape.IsNode y := by intro j hj; rw [hxy j (by omega)]; exact hx' j hj
  rw [← s.value y hy', ← s.value x hx']
  unfold cellAt
  rw [rawOffset_congr fun j hj => hxy j (by omega)]

/-- Every point of the box has a number. -/
theorem numbered {tool : Prog} (hopen : Opens tool (fin d).name) {x : Nat → Int} (hx : (m.serial d).IsNode x) :
    ∃ n : Nat, (n : Int) < (m.serial d).nodes ∧ (∀ j, j < d → (m.serial d).position n j = x j) ∧ F ((m.serial d).position n) = F x := by
  obtain ⟨i, ⟨h0, h1, h2⟩, -⟩ := Shape.position_surj (serial_wf hd hbox) hx
  obtain ⟨n, rfl⟩ := Int.eq_ofNat_of_zero_le h0
  exact ⟨n, h1, fun j hj => h2 j hj, field_congr hfd h hopen hx fun j hj => h2 j hj⟩

/-- **C115.** `mmsp2tsv` on the file of any run changes no file but its output, which is a table with one line per node, in node order, of the coordinates (with the spacings of the file)
and the values of the field. -/
theorem tsv_file (hopen : Opens .tsv (fin d).name) {text : D → Int → List Byte} {values : Int → T → Outcome (List (List Byte))} {v : (Nat → Int) → List (List Byte)}
    (htext : ∀ j k, j < d → Tsv.Clean (text (m.spacing (fin d).dx0 j) k))
    (hv : ∀ x, (m.serial d).IsNode x → values m.fields (F x) = .ok (v x) ∧ ∀ p ∈ v x, Tsv.Clean p)
    {fs : Files} {infile outfile : List Byte} (hfs : fs infile = some file) (hne : infile ≠ outfile) :
    let coord := fun j k => text (m.spacing (fin d).dx0 j) k
    ∃ out, (mmsp2tsv fin text values fs infile outfile).2 = .ok () ∧ (mmsp2tsv fin text values fs infile outfile).1 = Function.update fs outfile (some out) ∧
      (Tsv.table out = (List.range (m.serial d).nodes.toNat).map fun n : Nat => Tsv.coords coord d ((m.serial d).position n) ++ v ((m.serial d).position n)) ∧
      ∀ x, (m.serial d).IsNode x → Tsv.coords coord d x ++ v x ∈ Tsv.table out := by
  intro coord
  have hwf := serial_wf (D := D) hd hbox
  have key := export_eq hd hfd hbox h hopen (tsv text values) fun a b hs => hs.tsv text values
  obtain ⟨out, e, htab⟩ := Tsv.convert_table (coord := coord) hwf (show (m.serial d).ghosts = 0 from rfl) (values := values m.fields)
    (data := fun n => F ((m.serial d).position n)) (v := fun n => v ((m.serial d).position n)) (fun j k hj => htext j k hj)
    fun n hn => hv _ (Shape.position_isNode hwf (by omega) hn)
  have hout : (openFile .tsv fin file).bind (tsv text values) = .ok out := by
    rw [key]
    unfold held tsv
    rw [hfd]
    exact e
  have hline : (getline file).1 = (fin d).name := by
    obtain ⟨o, i, -⟩ := h .serial (fin d).name hopen.self 1 (by decide) 1 0 ⟨by decide, by decide⟩
    exact checkType_plain hopen.plain (input_line i).1
  obtain ⟨cell, hcell⟩ := hopen.line
  obtain ⟨r1, r2⟩ := tsv_converts (convert := fun _ content => (openFile .tsv fin content).bind (tsv text values)) hne hfs (by rw [hline]; exact hcell) hout
  refine ⟨out, r1, ?_, htab, fun x hx => ?_⟩
  · funext f
    by_cases hf : f = outfile
    · rw [hf, Function.update_self]; exact r2
    · rw [Function.update_of_ne hf]; exact tsv_keeps _ _ hf
  · obtain ⟨n, h1, h2, h3⟩ := numbered hd hfd hbox h hopen hx
    rw [htab, List.mem_map]
    refine ⟨n, List.mem_range.2 (by omega), ?_⟩
    have hv1 := (hv x hx).1
    rw [← h3, (hv _ (Shape.position_isNode hwf (by omega) h1)).1] at hv1
    have e1 : Tsv.coords coord d ((m.serial d).position n) = Tsv.coords coord d x := by
      unfold Tsv.coords
      apply List.map_congr_left
      intro j hj
      rw [h2 j (List.mem_range.1 hj)]
    show Tsv.coords coord d ((m.serial d).position n) ++ _ = _
    rw [e1, Outcome.ok.inj hv1]

/-- **C115.** `mmsp2vti` on the file of any run: an image with the limits and spacings of the file, in which the numbers of every point of the box are at its place, the first axis running
fastest. -/
theorem vti_file {E : Type} (hopen : Opens .vti (fin d).name) (one : D) {comps : Int → Nat} {values : T → Outcome (List E)} {v : (Nat → Int) → List E}
    (hv : ∀ x, (m.serial d).IsNode x → values (F x) = .ok (v x) ∧ (v x).length ≤ comps m.fields) :
    ∃ p, (openFile .vti fin file).bind (vti one comps values) = .ok p ∧ p.spacing = ((List.range 3).map fun j => if j < d then m.spacing (fin d).dx0 j else one) ∧
      p.image.size = (m.serial d).nodes * comps m.fields ∧ (∀ j, j < d → p.image.lo j = m.g0 j ∧ p.image.hi j = m.g1 j) ∧ (∀ j, d ≤ j → p.image.lo j = 0 ∧ p.image.hi j = 1) ∧
      ∀ x, (m.serial d).IsNode x → ∀ k < comps m.fields, p.image.mem ((Vtk.raster (m.serial d) x).toNat * comps m.fields + k) = (v x)[k]? := by
  have hwf := serial_wf (D := D) hd hbox
  have key := export_eq hd hfd hbox h hopen (vti one comps values) fun a b hs => hs.vti one comps values
  obtain ⟨i, e, h1, h2, h3, h4⟩ := Vtk.picture hwf (show (m.serial d).ghosts = 0 from rfl) (show d = 1 ∨ d = 2 ∨ d = 3 by omega) (comps := comps m.fields) (values := values)
    (data := fun n => F ((m.serial d).position n)) (v := fun n => v ((m.serial d).position n)) fun n h0 hn => hv _ (Shape.position_isNode hwf h0 hn)
  refine ⟨⟨i, (List.range 3).map fun j => if j < d then m.spacing (fin d).dx0 j else one⟩, ?_, rfl, h1, h2, h3, fun x hx k hk => ?_⟩
  · rw [key]
    unfold held vti
    rw [hfd]
    dsimp only
    rw [e]
    rfl
  · obtain ⟨n, e1, e2, e3⟩ := numbered hd hfd hbox h hopen hx
    have hv1 := (hv x hx).1
    rw [← e3, (hv _ (Shape.position_isNode hwf (by omega) e1)).1] at hv1
    have e4 : Vtk.raster (m.serial d) ((m.serial d).position n) = Vtk.raster (m.serial d) x := by
      unfold Vtk.raster
      apply Finset.sum_congr rfl
      intro j hj
      rw [e2 j (Finset.mem_range.1 hj)]
    rw [← Outcome.ok.inj hv1, ← e4]
    exact h4 n (by omega) e1 k hk

section Numbers
variable {α : Type} [Field α] [LinearOrder α] [IsStrictOrderedRing α]

/-- **C115.** `mmsp2png` on the file of any run, without contours: a complete picture of the plane, every pixel the shade of the field at its point with respect to the smallest range that
holds `zoomin`, `zoomax` (0 and 1 without options) and all values. -/
theorem png_file [FloorRing α] (hopen : Opens .png (fin d).name) {axis level : Int} (h12 : d < 3 → axis = -1)
    (h3 : d = 3 → 0 ≤ axis ∧ axis < 3 ∧ m.g0 axis.toNat ≤ level ∧ level < m.g1 axis.toNat) {value : Int → T → Outcome α} {φ : (Nat → Int) → α}
    (hv : ∀ x, (m.serial d).IsNode x → value m.fields (F x) = .ok (φ x)) {zoomin zoomax : α} (hz : zoomin < zoomax) :
    let f := Image.frame (m.serial d) axis.toNat level
    ∃ image lo hi, (openFile .png fin file).bind (png value value (fun _ _ _ b => .ok b) zoomin zoomax axis level false) = .ok ((f.width, f.height), image) ∧
      lo ≤ zoomin ∧ zoomax ≤ hi ∧ (∀ x, (m.serial d).IsNode x → lo ≤ φ x ∧ φ x ≤ hi) ∧ (lo = zoomin ∨ ∃ x, (m.serial d).IsNode x ∧ lo = φ x) ∧
      (hi = zoomax ∨ ∃ x, (m.serial d).IsNode x ∧ hi = φ x) ∧ image.length = f.height * f.width ∧
      ∀ r c, r < f.height → c < f.width → ∃ b ≤ 255, image[r * f.width + c]? = some (some b) ∧ (b : Int) = ⌊255 * ((φ (f.node r c) - lo) / (hi - lo))⌋ := by
  intro f
  have hwf := serial_wf (D := D) hd hbox
  have key := export_eq hd hfd hbox h hopen (png value value (fun _ _ _ b => .ok b) zoomin zoomax axis level false) fun a b hs => hs.png ..
  have hdim : (m.serial d).dim = 1 ∨ (m.serial d).dim = 2 ∨ (m.serial d).dim = 3 := show d = 1 ∨ d = 2 ∨ d = 3 by omega
  have hφ : ∀ x, (m.serial d).IsNode x → ∀ n : Nat, (n : Int) < (m.serial d).nodes → F ((m.serial d).position n) = F x → φ ((m.serial d).position n) = φ x := by
    intro x hx n hn e
    have e1 := hv x hx
    rw [← e, hv _ (Shape.position_isNode hwf (by omega) hn)] at e1
    exact Outcome.ok.inj e1
  obtain ⟨image, lo, hi, e1, -, e2, e3, e4, e5, e6, e7⟩ := Image.mmsp2png_partial (T := T) hwf (show (m.serial d).ghosts = 0 from rfl) hdim (axis := axis) (level := level) h12 h3
    (value := value m.fields) (mark := fun _ _ b => .ok b) (fun _ _ b hb => ⟨b, rfl, hb⟩) (data := fun n => F ((m.serial d).position n)) (φ := fun n => φ ((m.serial d).position n))
    (fun n hn => hv _ (Shape.position_isNode hwf (by omega) (by omega))) hz
  refine ⟨image, lo, hi, ?_, e2, e3, fun x hx => ?_, ?_, ?_, e7.size, fun r c hr hc => ?_⟩
  · rw [key]
    unfold held png
    rw [hfd]
    exact e1
  · obtain ⟨n, a1, a2, a3⟩ := numbered hd hfd hbox h hopen hx
    rw [← hφ x hx n a1 a3]
    exact e4 n (by omega)
  · exact e5.imp_right fun ⟨n, hn, e⟩ => ⟨_, Shape.position_isNode hwf (by omega) (by omega), e⟩
  · exact e6.imp_right fun ⟨n, hn, e⟩ => ⟨_, Shape.position_isNode hwf (by omega) (by omega), e⟩
  · obtain ⟨b, b', p1, p2, p3, p4⟩ := e7.pixel r c hr hc
    obtain rfl := Outcome.ok.inj p4
    refine ⟨b, p2, p1, ?_⟩
    have hax : axis.toNat < 3 := by
      by_cases hd3 : d = 3
      · have := h3 hd3; omega
      · have := h12 (by omega); omega
    have hnode := Image.frame_isNode hdim hax (fun e => (h3 e).2.2) hr hc
    obtain ⟨n, a1, a2, a3⟩ := numbered hd hfd hbox h hopen hnode
    have hraw : (m.serial d).rawOffset (f.node r c) = n := by
      have q1 := ParallelRun.atNode_raw (bd := .serial) hwf (fun _ => rfl) (Int.natCast_nonneg n) a1
      rw [rawOffset_congr (g := m.serial d) (x := f.node r c) (y := (m.serial d).position n) fun j hj => (a2 j hj).symm, ← q1]
      rfl
    rw [hraw] at p3
    have hval := hφ _ hnode n a1 a3
    rw [hval] at p3
    have hin := e4 n (by omega)
    rw [hval] at hin
    unfold Image.shade at p3
    dsimp only at p3
    split at p3
    · cases p3
    · next hne =>
      unfold Image.toByte at p3
      split at p3
      · next hb =>
        have hpos : (0 : α) ≤ 255 * ((φ (f.node r c) - lo) / (hi - lo)) := by
          have : 0 ≤ hi - lo := by linarith [hin.1, hin.2]
          have h1 : 0 ≤ φ (f.node r c) - lo := by linarith [hin.1]
          positivity
        have := Outcome.ok.inj p3
        have hfl := Int.floor_nonneg.2 hpos
        rw [← this]
        exact Int.toNat_of_nonneg hfl
      · cases p3

end Numbers
end Files

/-! ## Point clouds -/

section Clouds
variable {α : Type} [Field α] [LinearOrder α] [IsStrictOrderedRing α] {d : Nat} (hd : 1 ≤ d ∧ d ≤ 3) {m : Meta α} (hbox : ∀ j, j < d → m.g0 j < m.g1 j) {file : List Byte}

omit [LinearOrder α] [IsStrictOrderedRing α] in
theorem place_congr {dx : Nat → α} {x y : Nat → Int} (h : ∀ j, j < d → x j = y j) : Cloud.Place (m.serial d) dx x = Cloud.Place (m.serial d) dx y := by
  unfold Cloud.Place
  apply List.map_congr_left
  intro j _
  split
  · next hj => rw [h j hj]
  · rfl

omit [LinearOrder α] [IsStrictOrderedRing α] in
/-- The rows are the places of the chosen points. -/
theorem rows_places {T : Type} {fin : Nat → Format T α} (hfd : (fin d).d = d) {F : (Nat → Int) → T} (h : Denotes (fin d) m F file) (hopen : Opens .xyz (fin d).name)
    (hd : 1 ≤ d ∧ d ≤ 3) (hbox : ∀ j, j < d → m.g0 j < m.g1 j) (p : T → Prop) [DecidablePred p] (dx : Nat → α) (r : List α) :
    r ∈ (Cloud.chosen (m.serial d) fun n => p (F ((m.serial d).position n))).map (fun n => Cloud.Place (m.serial d) dx ((m.serial d).position n)) ↔
      ∃ x, (m.serial d).IsNode x ∧ p (F x) ∧ r = Cloud.Place (m.serial d) dx x := by
  have hwf := serial_wf (D := α) hd hbox
  constructor
  · intro hr
    obtain ⟨n, hn, rfl⟩ := List.mem_map.1 hr
    unfold Cloud.chosen at hn
    obtain ⟨hn, hp⟩ := List.mem_filter.1 hn
    obtain ⟨k, hk, rfl⟩ := List.mem_map.1 hn
    have := List.mem_range.1 hk
    exact ⟨_, Shape.position_isNode hwf (by omega) (by omega), of_decide_eq_true hp, rfl⟩
  · rintro ⟨x, hx, hp, rfl⟩
    obtain ⟨n, h1, h2, h3⟩ := numbered hd hfd hbox h hopen hx
    refine List.mem_map.2 ⟨n, ?_, place_congr h2⟩
    unfold Cloud.chosen
    exact List.mem_filter.2 ⟨List.mem_map.2 ⟨n, List.mem_range.2 (by omega), rfl⟩, decide_eq_true (show p (F ((m.serial d).position n)) by rw [h3]; exact hp)⟩

/-- **C115.** `mmsp2xyz` on the file of any run with scalar cells: the rows are the places of the points at which the field is near a level, no other rows. -/
theorem xyz_file (hd : 1 ≤ d ∧ d ≤ 3) (hbox : ∀ j, j < d → m.g0 j < m.g1 j) {fin : Nat → Format α α} (hfd : (fin d).d = d) {F : (Nat → Int) → α} (h : Denotes (fin d) m F file)
    (hopen : Opens .xyz (fin d).name) (mode : Nat) (levels : List α) (tol : α) (junk : List α) :
    ∃ rows, (openFile .xyz fin file).bind (xyz mode false levels tol junk) = .ok rows ∧
      ∀ r, r ∈ rows ↔ ∃ x, (m.serial d).IsNode x ∧ Cloud.Near tol levels (Cloud.scalarView mode (F x)) ∧ r = Cloud.Place (m.serial d) (m.spacing (fin d).dx0) x := by
  refine ⟨_, ?_, rows_places hfd h hopen hd hbox (fun v => Cloud.Near tol levels (Cloud.scalarView mode v)) (m.spacing (fin d).dx0)⟩
  rw [export_eq hd hfd hbox h hopen (xyz mode false levels tol junk) fun a b hs => hs.xyz ..]
  unfold held xyz
  rw [hfd]
  exact Cloud.scalars_spec (g := m.serial d) rfl (m.spacing (fin d).dx0) mode levels tol junk fun n => F ((m.serial d).position n)

/-- **C115.** With vector cells: the points at which the field `lvlfield` is near a level. -/
theorem xyz_vectors (hd : 1 ≤ d ∧ d ≤ 3) (hbox : ∀ j, j < d → m.g0 j < m.g1 j) {fin : Nat → Format (List α) α} (hfd : (fin d).d = d) {F : (Nat → Int) → List α}
    (h : Denotes (fin d) m F file) (hopen : Opens .xyz (fin d).name) (hlen : ∀ x, (m.serial d).IsNode x → (F x).length = m.fields.toNat) (mode : Nat) (normal : Bool) (levels : List α)
    {lvlfield : Int} (hl : 0 ≤ lvlfield ∧ lvlfield < m.fields) (tol : α) {fieldset : List Int} (hf : mode = 2 → ∀ i ∈ fieldset, 0 ≤ i ∧ i < m.fields) :
    ∃ rows, (openFile .xyz fin file).bind (xyzVector mode normal levels lvlfield tol fieldset) = .ok rows ∧
      ∀ r, r ∈ rows ↔ ∃ x, (m.serial d).IsNode x ∧ Cloud.Near tol levels ((F x).getD lvlfield.toNat 0) ∧ r = Cloud.Place (m.serial d) (m.spacing (fin d).dx0) x := by
  refine ⟨_, ?_, rows_places hfd h hopen hd hbox (fun v => Cloud.Near tol levels (v.getD lvlfield.toNat 0)) (m.spacing (fin d).dx0)⟩
  rw [export_eq hd hfd hbox h hopen (xyzVector mode normal levels lvlfield tol fieldset) fun a b hs => hs.xyzVector ..]
  unfold held xyzVector
  rw [hfd]
  have hF : ((m.fields.toNat : Nat) : Int) = m.fields := Int.toNat_of_nonneg (by omega)
  exact Cloud.vectors_spec (g := m.serial d) rfl (m.spacing (fin d).dx0) mode normal levels tol (data := fun n => F ((m.serial d).position n))
    (fun n hn => hlen _ (Shape.position_isNode (serial_wf hd hbox) (by omega) (by omega))) (by rw [hF]; exact hl) (by rw [hF]; exact hf)

/-- **C115.** With sparse cells. -/
theorem xyz_sparse (hd : 1 ≤ d ∧ d ≤ 3) (hbox : ∀ j, j < d → m.g0 j < m.g1 j) {fin : Nat → Format (Sparse.Cell α) α} (hfd : (fin d).d = d) {F : (Nat → Int) → Sparse.Cell α}
    (h : Denotes (fin d) m F file) (hopen : Opens .xyz (fin d).name) (mode : Nat) (normal : Bool) (levels : List α) (lvlfield : Int) (tol : α) (fieldset : List Int) :
    ∃ rows, (openFile .xyz fin file).bind (xyzSparse mode normal levels lvlfield tol fieldset) = .ok rows ∧
      ∀ r, r ∈ rows ↔ ∃ x, (m.serial d).IsNode x ∧ Cloud.Near tol levels (Sparse.get (F x) lvlfield) ∧ r = Cloud.Place (m.serial d) (m.spacing (fin d).dx0) x := by
  refine ⟨_, ?_, rows_places hfd h hopen hd hbox (fun v => Cloud.Near tol levels (Sparse.get v lvlfield)) (m.spacing (fin d).dx0)⟩
  rw [export_eq hd hfd hbox h hopen (xyzSparse mode normal levels lvlfield tol fieldset) fun a b hs => hs.xyzSparse ..]
  unfold held xyzSparse
  rw [hfd]
  exact Cloud.sparses_spec (g := m.serial d) rfl (m.spacing (fin d).dx0) mode normal levels lvlfield tol fieldset fun n => F ((m.serial d).position n)

end Clouds

/-! ## After a simulation -/

/-- **C115.** Whatever is drawn of the last file of a chain of Allen-Cahn sessions on any numbers of ranks is what would be drawn of the serial run. -/
theorem sessions_shown {fin : Nat → Format T D} {d : Nat} (hd : 1 ≤ d ∧ d ≤ 3) (hfd : (fin d).d = d) {tool : Prog} (hopen : Opens tool (fin d).name) [Zero T] [One T] [Add T] [Sub T] [Mul T] [Div T]
    (hcomp : (fin d).comp = none) {c : Codec T} (hcell : (fin d).cell = primCell c) (hname : newline ∉ (fin d).name) {m : Meta D} (hm : m.Good (fin d)) (hbox : ∀ j, j < d → m.g0 j < m.g1 j)
    (hsize : sites (m.serial d) * c.width + 16 * d + 16 < 2 ^ 31 - 1) (conv : D → T) (f : T → T → T) {ps : List (Sessions.Part T)}
    (hps : ∀ q ∈ ps, (m.world d q.ghosts (q.ranks.getD 1)).Ok (q.ranks.getD 1) ∧ q.ranks.getD 1 < 2 ^ 31 ∧ 1 ≤ q.ghosts)
    {F : (Nat → Int) → T} {file : List Byte} (hfile : Denotes (fin d) m F file) {σ : Grids T} (hσ : ∀ x, (m.serial d).IsNode x → cellAt (m.serial d) (σ 0) x = F x) :
    ∃ σ', serialRun (m.serial d) (repeatProg (allenCahn d (fun j => conv (m.spacing (fin d).dx0 j)) f) (ps.map Sessions.Part.steps).sum) σ = .ok σ' ∧
      (∃ last, Chain (fin d) (ps.map (Sessions.Part.session d conv f)) file last) ∧
      ∀ last, Chain (fin d) (ps.map (Sessions.Part.session d conv f)) file last → ∀ (R : Type) (draw : Grid T D → Outcome R), (∀ a b, Same a b → draw a = draw b) →
        (openFile tool fin last).bind draw = draw (held (fin d) m (cellAt (m.serial d) (σ' 0))) := by
  have := allenCahn_restarts (fmt := fin d) hcomp hcell hname hopen.self hm (by rw [hfd]; exact hsize) conv f (ps := ps) (by rw [hfd]; exact hps) hfile (σ := σ) (by rw [hfd]; exact hσ)
  rw [hfd] at this
  obtain ⟨σ', e, h1, h2⟩ := this
  exact ⟨σ', e, h1, fun last hlast R draw hdraw => export_eq hd hfd hbox (h2 last hlast) hopen draw hdraw⟩

/-- The value of a finite `double`. -/
noncomputable def real : Ieee.Num Ieee.double → Outcome ℝ
  | .fin x _ => .ok x
  | .bad => .ub

section Doubles
open Symmetry (Room)
open Ieee Ieee.Num IeeeConfine IeeeWhole

/-- **C115.** The picture that `mmsp2png` makes of the last file of the Allen-Cahn example, from the random numbers on, in `double`s on any numbers of ranks: every pixel is the shade of a number
within `±1`; white (255) is 1, black is the smallest value `lo` of the field, or 0 if it has no negative value. -/
theorem unit_picture {D : Type} {fin : Nat → Format (Num double) D} {d : Nat} (hd : 1 ≤ d ∧ d ≤ 3) (hfd : (fin d).d = d) (hopen : Opens .png (fin d).name) (hcomp : (fin d).comp = none)
    {c : Codec (Num double)} (hcell : (fin d).cell = primCell c) (hname : newline ∉ (fin d).name) {m : Meta D} (hm : m.Good (fin d))
    (hsize : sites (m.serial d) * c.width + 16 * d + 16 < 2 ^ 31 - 1) (hroom : Room 1 (m.serial d)) {conv : D → Num double} (hdx : ∀ j, conv (m.spacing (fin d).dx0 j) = 1)
    {cube : Num double → Num double} (hcube : Cube cube) {randMax : Int} (hmax : 0 < randMax ∧ randMax < 2 ^ 31) {rand : Int → Nat → Int} (hrand : ∀ r n, 0 ≤ rand r n ∧ rand r n ≤ randMax)
    (new : Int → Int → Num double) {ghosts : Int} {ranks : Option Nat} (hok : (m.world d ghosts (ranks.getD 1)).Ok (ranks.getD 1)) (hnp : ranks.getD 1 < 2 ^ 31)
    {ps : List (Sessions.Part (Num double))} (hps : ∀ q ∈ ps, (m.world d q.ghosts (q.ranks.getD 1)).Ok (q.ranks.getD 1) ∧ q.ranks.getD 1 < 2 ^ 31 ∧ 1 ≤ q.ghosts)
    {axis level : Int} (h12 : d < 3 → axis = -1) (h3 : d = 3 → 0 ≤ axis ∧ axis < 3 ∧ m.g0 axis.toNat ≤ level ∧ level < m.g1 axis.toNat)
    {file last : List Byte} (hfile : Begun (fin d) m ghosts (startValue randMax) rand new ranks file)
    (hlast : Chain (fin d) (ps.map (Sessions.Part.session d conv (powRhs cube dt 1 1 1 1))) file last) :
    let f := Image.frame (m.serial d) axis.toNat level
    ∃ (G : (Nat → Int) → Num double) (φ : (Nat → Int) → ℝ) (image : List (Option Nat)) (lo : ℝ), Denotes (fin d) m G last ∧ (∀ x, (m.serial d).IsNode x → Is (G x) (φ x) ∧ lo ≤ φ x ∧ φ x ≤ 1) ∧
      -1 ≤ lo ∧ lo ≤ 0 ∧ (lo = 0 ∨ ∃ x, (m.serial d).IsNode x ∧ lo = φ x) ∧
      (openFile .png fin last).bind (png (fun _ => real) (fun _ => real) (fun _ _ _ b => .ok b) 0 1 axis level false) = .ok ((f.width, f.height), image) ∧ image.length = f.height * f.width ∧
      ∀ r c, r < f.height → c < f.width → ∃ b ≤ 255, image[r * f.width + c]? = some (some b) ∧ (b : Int) = ⌊255 * ((φ (f.node r c) - lo) / (1 - lo))⌋ := by
  intro f
  have key := every_file_unit (fmt := fin d) (ghosts := ghosts) (ranks := ranks) hcomp hcell hname hopen.self hm (by rw [hfd]; exact hsize) (by rw [hfd]; exact hroom) (by omega) hdx hcube hmax hrand
    new (by rw [hfd]; exact hok) hnp (ps := ps) (by rw [hfd]; exact hps)
  rw [hfd] at key
  obtain ⟨G, hG, hu⟩ := key.2 file last hfile hlast
  have hex : ∀ x, ∃ v : ℝ, (m.serial d).IsNode x → Is (G x) v ∧ |v| ≤ 1 := fun x => by
    by_cases hx : (m.serial d).IsNode x
    · obtain ⟨v, hv⟩ := hu x hx
      exact ⟨v, fun _ => hv⟩
    · exact ⟨0, fun h => absurd h hx⟩
  choose φ hφ using hex
  have hbox : ∀ j, j < d → m.g0 j < m.g1 j := hroom.wf.side
  obtain ⟨image, lo, hi, e1, e2, e3, e4, e5, e6, e7, e8⟩ := png_file hd hfd hbox hG hopen h12 h3 (value := fun _ => real) (φ := φ) (fun x hx => by
    obtain ⟨⟨hf, e⟩, -⟩ := hφ x hx
    rw [e]; rfl) (zoomin := 0) (zoomax := 1) one_pos
  have hhi : hi = 1 := by
    rcases e6 with e | ⟨x, hx, e⟩
    · exact e
    · exact le_antisymm (e ▸ (abs_le.1 (hφ x hx).2).2) e3
  subst hhi
  refine ⟨G, φ, image, lo, hG, fun x hx => ⟨(hφ x hx).1, e4 x hx⟩, ?_, e2, e5, e1, e7, e8⟩
  rcases e5 with e | ⟨x, hx, e⟩
  · rw [e]; norm_num
  · rw [e]; exact (abs_le.1 (hφ x hx).2).1

end Doubles

/-! ## Examples -/

section Examples
open IeeeWhole GenerateRanks Ieee Ieee.Num IeeeConfine

theorem ints_open (tool : Prog) (h : tool ≠ .pvd) : Opens tool (gridName (ascii "int")) := by
  refine ⟨h, ?_, by decide +kernel, by decide +kernel⟩
  cases tool
  all_goals first
    | exact ⟨ascii "int", by decide +kernel⟩
    | exact ⟨ascii "scalar:int", by decide +kernel⟩

theorem doubles_open (tool : Prog) (h : tool ≠ .pvd) : Opens tool (gridName (ascii "double")) := by
  refine ⟨h, ?_, by decide +kernel, by decide +kernel⟩
  cases tool
  all_goals first
    | exact ⟨ascii "double", by decide +kernel⟩
    | exact ⟨ascii "scalar:double", by decide +kernel⟩

theorem intDec_clean (n : Int) : Tsv.Clean (intDec n) := by
  have hd := natDec_digits n.natAbs
  have h1 : Tsv.tab ∉ natDec n.natAbs := fun h => by have := hd _ h; revert this; decide
  have h2 : newline ∉ natDec n.natAbs := fun h => by have := hd _ h; revert this; decide
  rw [intDec]
  split
  · exact ⟨by simp only [List.mem_cons, not_or]; exact ⟨by decide, h1⟩, by simp only [List.mem_cons, not_or]; exact ⟨by decide, h2⟩⟩
  · exact ⟨h1, h2⟩

theorem ring_box (k : Int) (j : Nat) (hj : j < 1) : (GenerateRanks.ring k).g0 j < (GenerateRanks.ring k).g1 j := by
  obtain rfl : j = 0 := by omega
  show (0 : Int) < 1024
  decide

/-- A table of Monte Carlo states that were made on four ranks: each of the 1024 points has its line. -/
example (rand : Int → Nat → Int) (hrand : ∀ r n, 0 ≤ rand r n) (fs : Files) : ∃ file, Begun ints (GenerateRanks.ring 0) 1 (Generate.choice 3) rand (fun _ _ => 0) (some 4) file ∧
    ∃ F out, Denotes ints (GenerateRanks.ring 0) F file ∧
      (mmsp2tsv (fun _ => ints) (fun dx k => intDec (dx.val * k)) (fun _ => Tsv.scalarValues intDec) (Function.update fs [1] (some file)) [1] [2]).1 =
        Function.update (Function.update fs [1] (some file)) [2] (some out) ∧
      ∀ x, 0 ≤ x 0 → x 0 < 1024 → [intDec (x 0), intDec (F x)] ∈ Tsv.table out := by
  have hb := begun (fmt := ints) (m := GenerateRanks.ring 0) (ghosts := 1) (ranks := some 4) (f := Generate.choice 3) (rand := rand) (new := fun _ _ => 0) ints_good (ring_good rfl ⟨by decide, by decide⟩ rfl)
    (show ((GenerateRanks.ring 0).world 1 1 4).Ok 4 from ring_ok 0 (np := 4) (by decide)) (show 4 < 2 ^ 31 by decide)
    (bounded_fits (B := 4) rfl ints_good.cell ints_good.valid (fun v _ => by show 4 ≤ 4; decide) (ParallelRun.serial_wf (ring_ok 0 (Or.inl rfl))) (show 1024 * 4 + 16 * 1 + 16 < 2 ^ 31 - 1 by decide)).1
    (fun np e r hr => by
      obtain rfl := Option.some.inj e
      exact ring_writes rfl ints_good.cell ints_good.valid (fun v _ => by show 4 ≤ 1000; decide) 0 (by decide) hr)
    (fun r n => by
      show 0 ≤ Int.tmod _ 3 ∧ Int.tmod _ 3 < 3
      exact ⟨Int.tmod_nonneg _ (hrand r n), Int.tmod_lt_of_pos _ (by decide)⟩) fun _ _ => ⟨le_rfl, by decide⟩
  obtain ⟨⟨file, hfile⟩, hall⟩ := hb
  obtain ⟨F, hF, -⟩ := hall file hfile
  obtain ⟨out, -, h2, -, h4⟩ := tsv_file (fin := fun _ => ints) (d := 1) ⟨le_rfl, by decide⟩ rfl (ring_box 0) hF (ints_open .tsv (by decide)) (text := fun dx k => intDec (dx.val * k))
    (values := fun _ => Tsv.scalarValues intDec) (v := fun x => [intDec (F x)]) (fun j k _ => intDec_clean _) (fun x hx => ⟨rfl, fun p hp => by
      obtain rfl := List.mem_singleton.1 hp
      exact intDec_clean _⟩) (fs := Function.update fs [1] (some file)) (infile := [1]) (outfile := [2]) (Function.update_self ..) (by decide)
  refine ⟨file, hfile, F, out, hF, h2, fun x h0 h1 => ?_⟩
  have := h4 x fun j hj => by
    obtain rfl : j = 0 := by change j < 1 at hj; omega
    exact ⟨h0, h1⟩
  have e : Tsv.coords (fun j k => intDec (((GenerateRanks.ring 0).spacing ints.dx0 j).val * k)) 1 x = [intDec (x 0)] := by
    show [intDec (1 * x 0)] = _
    rw [one_mul]
  rw [e] at this
  exact this

/-- The line of 1024 nodes after 10^9 steps on two ranks and 5 steps of a serial program, as a picture. -/
example (rand : Int → Nat → Int) (hrand : ∀ r n, 0 ≤ rand r n ∧ rand r n ≤ 2147483647) (junk : Int → Grids (Num double)) (new : Int → Int → Num double) (ps : List (Sessions.Part (Num double)))
    (hps : ps = [⟨some 2, 1, 1000000000, junk⟩, ⟨none, 1, 5, junk⟩]) (file last : List Byte) (hfile : Begun doubles (GenerateRanks.ring 1) 1 (startValue 2147483647) rand new (some 4) file)
    (hlast : Chain doubles (ps.map (Sessions.Part.session 1 spacing (powRhs timesThree dt 1 1 1 1))) file last) :
    ∃ image : List (Option Nat), (openFile .png (fun _ => doubles) last).bind (png (fun _ => real) (fun _ => real) (fun _ _ _ b => .ok b) 0 1 (-1) 0 false) = .ok ((1024, 1), image) ∧
      image.length = 1024 := by
  obtain ⟨G, φ, image, lo, -, -, -, -, -, h1, h2, -⟩ := unit_picture (fin := fun _ => doubles) (d := 1) ⟨le_rfl, by decide⟩ rfl (doubles_open .png (by decide)) rfl (c := doubleBytes) rfl double_name.1
    (m := GenerateRanks.ring 1) (ring_good rfl ⟨by decide, by decide⟩ rfl) (show 1024 * 8 + 16 * 1 + 16 < 2 ^ 31 - 1 by decide) ring_room (conv := spacing) (fun j => by rw [ring_spacing, spacing_one])
    (timesThree_cube double_good) (randMax := 2147483647) ⟨by decide, by decide⟩ hrand new (ghosts := 1) (ranks := some 4)
    (show ((GenerateRanks.ring 1).world 1 1 4).Ok 4 from ring_ok 1 (np := 4) (by decide)) (show 4 < 2 ^ 31 by decide) (ps := ps) (fun q hq => by
      subst hps
      rcases List.mem_cons.1 hq with rfl | hq
      · exact ⟨ring_ok 1 (np := 2) (by decide), show 2 < 2 ^ 31 by decide, show (1 : Int) ≤ 1 by decide⟩
      · obtain rfl := List.mem_singleton.1 hq
        exact ⟨ring_ok 1 (np := 1) (by decide), show 1 < 2 ^ 31 by decide, show (1 : Int) ≤ 1 by decide⟩) (axis := -1) (level := 0) (fun _ => rfl) (fun h => absurd h (by decide)) hfile hlast
  exact ⟨image, h1, h2⟩

end Examples

end MMSP.Export
