import Verif.ConvertFile
import Verif.ToolProps
import Verif.ConvertSparse
import Verif.VoxelProps
/-!
# Property C82: the converters from file to file
-/

namespace MMSP.ConvertFile

open FileIO Tool Sessions Voxel
open Decomp (InGlobal)

/-! ## Specification -/

section Spec
variable {T D : Type}

/-- The file is what a program writes for this grid: it starts with the header, and whoever reads it obtains the field `F`. -/
structure Holds (fmt : Format T D) (fields : Int) (g0 g1 : Nat → Int) (dx : Nat → D) (B0 B1 : Nat → BC) (F : (Nat → Int) → T) (file : List Byte) : Prop where
  text : ∃ rest, file = header fmt.dec fmt.name fmt.d fields g0 g1 dx ++ rest
  denotes : Denotes fmt (Meta.of fmt.dec fmt.d fields g0 g1 dx B0 B1) F file

/-- What any run of any program writes, serial or on any number of ranks, is such a file. -/
theorem holds_of_run (fmt : Format T D) (hc : RoundTrips fmt.cell) (hz : Lawful fmt.comp) (hd : 0 < fmt.d) (hdi : IsInt fmt.d) (hnm : newline ∉ fmt.name)
    {fields : Int} (hf : IsInt fields) {g0 g1 : Nat → Int} (hg : ∀ j, j < fmt.d → g0 j ≤ g1 j) (hint : ∀ j, j < fmt.d → IsInt (g0 j) ∧ IsInt (g1 j))
    (dx : Nat → D) {B0 B1 : Nat → BC} {F : (Nat → Int) → T} {ws : List (Reader T)} (hrun : Run fmt.cell fmt.d g0 g1 B0 B1 F ws)
    (hshrink : ∀ w ∈ ws, Shrinks fmt.comp fmt.cell w) :
    ∃ file, outputBytes fmt.comp fmt.cell fmt.dec fmt.name fmt.d fields g0 g1 dx ws = .ok file ∧ Holds fmt fields g0 g1 dx B0 B1 F file := by
  obtain ⟨file, e1, e2⟩ := output_denotes fmt hc hz hd hdi hnm hf hg hint dx hrun hshrink
  refine ⟨file, e1, ?_, e2⟩
  change (dataSection fmt.comp fmt.cell ws).bind _ = _ at e1
  cases h : dataSection fmt.comp fmt.cell ws with
  | ok b => rw [h] at e1; exact ⟨b, (Outcome.ok.inj e1).symm⟩
  | ub => rw [h] at e1; cases e1
  | abort c => rw [h] at e1; cases e1

end Spec

/-! ## The front end -/

theorem extract_intDec {n : Int} (hn : IsInt n) {ws : List Byte} (hws : ∀ b ∈ ws, isSpace b = true) (rest : List Byte) (old : Option Int) :
    extract old (some (ws ++ (intDec n ++ newline :: rest))) = (some n, some (newline :: rest)) := by
  have := extractInt_intDec hn hws (b := newline) (by decide) rest
  rw [extract, this]

/-- The front end on a file with a good type line. -/
theorem front_header {k : Kind} {D : Type} {dec : Decimal D} {nm : List Byte} (hnm : newline ∉ nm) (hk : typeOk k nm = true) {d : Nat} (hd : 1 ≤ d ∧ d ≤ 3)
    {fields : Int} (hf : IsInt fields) (g0 g1 : Nat → Int) (dx : Nat → D) (rest : List Byte) :
    front k (header dec nm d fields g0 g1 dx ++ rest) = if k.single = true ∧ fields ≠ 1 then .abort (-1) else .ok d := by
  have e1 := fun r => extract_intDec (n := (d : Int)) ⟨by omega, by omega⟩ (ws := []) (by simp) r none
  have e2 := fun r => extract_intDec (n := fields) hf (ws := [newline]) (by decide) r none
  simp only [List.nil_append, List.cons_append] at e1 e2
  unfold front header
  rw [List.append_assoc, List.cons_append, getline_append hnm]
  simp only [hk, List.append_assoc, List.cons_append, e1, e2]
  rw [if_neg (by decide), if_neg (by omega)]
  cases k.single
  · simp
  · by_cases hf1 : fields = 1
    · simp [hf1]
    · simp [hf1]

/-- **C82.** Files whose type line does not contain the words asked for, or contains a word that must not be there, are refused with -1. -/
theorem front_refuses {k : Kind} {nm : List Byte} (hnm : newline ∉ nm) (hk : typeOk k nm = false) (rest : List Byte) :
    front k (nm ++ newline :: rest) = .abort (-1) := by
  unfold front
  rw [getline_append hnm]
  simp only [hk, if_true]

/-- **C82.** A file that ends after the type line makes the programs use a dimension that was never set. -/
theorem front_cut {k : Kind} {nm : List Byte} (hnm : newline ∉ nm) (hk : typeOk k nm = true) {ws : List Byte} (hws : ∀ b ∈ ws, isSpace b = true) :
    front k (nm ++ newline :: ws) = .ub := by
  have hd : ws.dropWhile isSpace = [] := List.dropWhile_eq_nil_iff.2 hws
  have he : extractInt ws = none := by unfold extractInt; rw [hd]; rfl
  unfold front
  rw [getline_append hnm]
  simp only [hk, extract, he, failValue, hd, if_true]
  rfl

/-! ## From file to file -/

section Generic
variable {T U T' U' D : Type}

/-- **C82.** None of the programs changes any file unless it succeeds, and then only the output. -/
theorem convert_safe (k : Kind) (fin : Nat → Format T D) (fout : Nat → Format U D) (view : T → T') (pack : U' → U)
    (conv : Convert.Grid D T' → Outcome (Convert.Grid D U')) (fs : Files) (infile : List Byte) (out : Option (List Byte)) :
    ((convert k fin fout view pack conv fs infile out).2 ≠ .ok () → (convert k fin fout view pack conv fs infile out).1 = fs) ∧
    ∀ name, name ≠ target k infile out → (convert k fin fout view pack conv fs infile out).1 name = fs name := by
  unfold convert
  cases fs infile with
  | none => exact ⟨fun _ => rfl, fun _ _ => rfl⟩
  | some content =>
    dsimp only
    split
    · exact ⟨fun h => absurd rfl h, fun name h => Function.update_of_ne h _ _⟩
    · exact ⟨fun _ => rfl, fun _ _ => rfl⟩
    · exact ⟨fun _ => rfl, fun _ _ => rfl⟩

/-- What is read from a file, without MPI. Limits of axes that do not exist count as 0. -/
theorem opened {fin : Nat → Format T D} {d : Nat} (hfd : (fin d).d = d) (hacc : checkType (fin d).name (fin d).name = .ok ()) (hd : 0 < d)
    {fields : Int} {g0 g1 : Nat → Int} (hg : ∀ j, j < d → g0 j < g1 j) (hpad : ∀ j, d ≤ j → g0 j = 0 ∧ g1 j = 0) {dx : Nat → D} {B0 B1 : Nat → BC}
    {F : (Nat → Int) → T} {file : List Byte} (h : Denotes (fin d) (Meta.of (fin d).dec (fin d).d fields g0 g1 dx B0 B1) F file) :
    ∃ o, input (fin d).comp (fin d).cell (fin d).fresh (fin d).dec (fin d).dx0 .serial (fin d).name d 1 1 0 file = .ok o ∧
      o.fields = fields ∧ o.local_.shape.dim = d ∧ o.local_.shape.ghosts = 0 ∧ o.local_.shape.Wf ∧ o.local_.shape.x0 = g0 ∧ o.local_.shape.x1 = g1 ∧
      ∀ x, InGlobal d g0 g1 x → 0 ≤ o.local_.shape.rawOffset x ∧ o.local_.shape.rawOffset x < o.local_.shape.nodes ∧
        o.local_.data (o.local_.shape.rawOffset x) = F x := by
  obtain ⟨o, h1, h2⟩ := h .serial (fin d).name hacc 1 (by decide) 1 0 ⟨by decide, by decide⟩
  rw [hfd] at h1 h2
  have hlim : ∀ j, (Meta.of (fin d).dec d fields g0 g1 dx B0 B1).g0 j = g0 j ∧ (Meta.of (fin d).dec d fields g0 g1 dx B0 B1).g1 j = g1 j := by
    intro j
    unfold Meta.g0 Meta.g1 Meta.of
    by_cases hj : j < d
    · rw [getD_range hj]
      exact ⟨rfl, rfl⟩
    · rw [getD_past (by simpa using hj), (hpad j (by omega)).1, (hpad j (by omega)).2]
      exact ⟨rfl, rfl⟩
  have hx0 : o.local_.shape.x0 = g0 := h2.box.2.1.trans (funext fun j => (hlim j).1)
  have hx1 : o.local_.shape.x1 = g1 := h2.box.2.2.1.trans (funext fun j => (hlim j).2)
  have hdim : o.local_.shape.dim = d := h2.box.1.trans hfd
  have hgh : o.local_.shape.ghosts = 0 := h2.box.2.2.2
  have hwf : o.local_.shape.Wf := by
    refine ⟨by omega, fun j hj => ?_, by omega⟩
    rw [hdim] at hj
    rw [hx0, hx1]; exact hg j hj
  refine ⟨o, h1, h2.fields, hdim, hgh, hwf, hx0, hx1, fun x hx => ?_⟩
  have hn : o.local_.shape.IsNode x := by
    intro j hj
    rw [hdim] at hj
    rw [hx0, hx1]
    exact hx j hj
  have hb := Shape.rawOffset_bounds hwf (x := x) fun j hj => by
    have := hn j hj
    rw [hgh]; omega
  rw [Convert.cells_eq hgh] at hb
  exact ⟨hb.1, hb.2, h2.value x hn⟩

/-- The common part of all six programs: whatever the loops do with every grid that has the limits and values of the file, the output file holds. -/
theorem convert_spec [One D] {k : Kind} {fin : Nat → Format T D} {fout : Nat → Format U D} {view : T → T'} {pack : U' → U}
    {conv : Convert.Grid D T' → Outcome (Convert.Grid D U')} {d : Nat} (hd : 1 ≤ d ∧ d ≤ 3) (hin : (fin d).d = d) (hout : (fout d).d = d)
    (hnm : newline ∉ (fin d).name) (hk : typeOk k (fin d).name = true) (hacc : checkType (fin d).name (fin d).name = .ok ())
    {P : U → Prop} (hfmt : (fout d).Good P)
    {fields : Int} (hf : IsInt fields) (hsingle : k.single = true → fields = 1) {g0 g1 : Nat → Int} (hg : ∀ j, j < d → g0 j < g1 j)
    (hpad : ∀ j, d ≤ j → g0 j = 0 ∧ g1 j = 0) (hint : ∀ j, j < d → IsInt (g0 j) ∧ IsInt (g1 j)) {dx : Nat → D} {B0 B1 : Nat → BC}
    {F : (Nat → Int) → T} {file : List Byte} (hfile : Holds (fin d) fields g0 g1 dx B0 B1 F file)
    (hfits : Fits (fout d) P (serialShape d g0 g1 (fun _ => .periodic) fun _ => .periodic))
    {Q : T' → Prop} (hQ : ∀ x, InGlobal d g0 g1 x → Q (view (F x))) {Rel : Int → T' → U' → Prop} {Ex : Int → (T' → Prop) → Prop}
    (hconv : ∀ g : Convert.Grid D T', g.shape.ghosts = 0 → g.shape.dim = d → g.fields = fields → 0 < Convert.size g → (∀ i < Convert.size g, Q (g.data (i : Nat))) →
      ∃ g2, conv g = .ok g2 ∧ Convert.Default g g2 ∧ IsInt g2.fields ∧ Ex g2.fields (fun t => ∃ i < Convert.size g, g.data (i : Nat) = t) ∧
        ∀ i < Convert.size g, Rel g2.fields (g.data (i : Nat)) (g2.data i) ∧ P (pack (g2.data i)))
    {fs : Files} {infile : List Byte} (hfs : fs infile = some file) (out : Option (List Byte)) :
    ∃ (fields' : Int) (F' : (Nat → Int) → U') (file' : List Byte),
      convert k fin fout view pack conv fs infile out = (Function.update fs (target k infile out) (some file'), .ok ()) ∧
      Holds (fout d) fields' g0 g1 (fun _ => 1) (fun _ => .periodic) (fun _ => .periodic) (fun x => pack (F' x)) file' ∧ IsInt fields' ∧
      Ex fields' (fun t => ∃ x, InGlobal d g0 g1 x ∧ view (F x) = t) ∧ ∀ x, InGlobal d g0 g1 x → Rel fields' (view (F x)) (F' x) ∧ P (pack (F' x)) := by
  obtain ⟨o, e1, e2, e3, e4, e5, e6, e6', e7⟩ := opened hin hacc (by omega) hg hpad hfile.denotes
  let g : Convert.Grid D T' := ⟨o.local_.shape, o.fields, o.dx, fun i => view (o.local_.data i)⟩
  -- every node number belongs to a point
  have hpt : ∀ i : Nat, i < Convert.size g → ∃ x, InGlobal d g0 g1 x ∧ o.local_.shape.rawOffset x = i := by
    intro i hi
    have hi' : (i : Int) < o.local_.shape.nodes := by
      have : i < o.local_.shape.nodes.toNat := hi
      omega
    obtain ⟨x, hx, he⟩ := Shape.rawOffset_surj e5 (n := (i : Int)) (by omega) (by rw [Convert.cells_eq e4]; exact hi')
    refine ⟨x, fun j hj => ?_, he⟩
    have := hx j (by rw [e3]; exact hj)
    rw [e4, e6, e6'] at this
    omega
  have hval : ∀ x, InGlobal d g0 g1 x → g.data (o.local_.shape.rawOffset x) = view (F x) := fun x hx => congrArg view (e7 x hx).2.2
  have hnum : ∀ x, InGlobal d g0 g1 x → ∃ i : Nat, i < Convert.size g ∧ o.local_.shape.rawOffset x = i := by
    intro x hx
    obtain ⟨h1, h2, -⟩ := e7 x hx
    refine ⟨(o.local_.shape.rawOffset x).toNat, ?_, by omega⟩
    change _ < o.local_.shape.nodes.toNat
    omega
  have hne : 0 < Convert.size g := by
    obtain ⟨i, hi, -⟩ := hnum g0 fun j hj => ⟨le_refl _, hg j hj⟩
    omega
  obtain ⟨g2, c1, c2, c3, c4, c5⟩ := hconv g e4 e3 e2 hne fun i hi => by
    obtain ⟨x, hx, he⟩ := hpt i hi
    rw [← he, hval x hx]; exact hQ x hx
  have hg2 : g2.shape = serialShape d g0 g1 (fun _ => .periodic) fun _ => .periodic := by
    have h1 : g2.shape.dim = d := c2.dim.trans e3
    have h2 : g2.shape.x0 = g0 := c2.lower.trans e6
    have h3 : g2.shape.x1 = g1 := c2.upper.trans e6'
    have h4 := c2.ghosts
    have h5 : g2.shape.b0 = fun _ => .periodic := funext fun j => (c2.bc j).1
    have h6 : g2.shape.b1 = fun _ => .periodic := funext fun j => (c2.bc j).2
    generalize g2.shape = s at *
    obtain ⟨a, b, c, b0, b1, e⟩ := s
    dsimp only at h1 h2 h3 h4 h5 h6
    subst h1 h2 h3 h4 h5 h6
    rfl
  have hraw : ∀ x, (serialShape d g0 g1 (fun _ => .periodic) fun _ => .periodic).rawOffset x = o.local_.shape.rawOffset x := fun x =>
    SameBox.offset (g := serialShape d g0 g1 (fun _ => .periodic) fun _ => .periodic) ⟨e3.symm, e6.symm, e6'.symm, e4.symm⟩ x
  have hcells : (serialShape d g0 g1 (fun _ => .periodic) fun _ => .periodic).cells = o.local_.shape.cells :=
    sameBox_cells ⟨e3.symm, e6.symm, e6'.symm, e4.symm⟩
  have hP : ∀ n : Int, 0 ≤ n → n < (serialShape d g0 g1 (fun _ => .periodic) fun _ => .periodic).cells → P (pack (g2.data n)) := by
    intro n h0 h1
    rw [hcells, Convert.cells_eq e4] at h1
    have := (c5 n.toNat (show n.toNat < o.local_.shape.nodes.toNat by omega)).2
    rwa [Int.toNat_of_nonneg h0] at this
  obtain ⟨file', k1, k2⟩ := holds_of_run (fout d) hfmt.cell hfmt.zlib (by omega) (by rw [hout]; exact ⟨by omega, by omega⟩) hfmt.name (fields := g2.fields) c3
    (g0 := g0) (g1 := g1) (fun j hj => (hg j (by omega)).le) (fun j hj => hint j (by omega)) (fun _ => 1)
    (by
      rw [hout]
      exact serial_run (c := (fout d).cell) (d := d) (fun j hj => (hg j hj).le) (fun _ => .periodic) (fun _ => .periodic)
        (data := fun i => pack (g2.data i)) (fun n h0 h1 => hfmt.valid _ (hP n h0 h1)) (hfits.small _ hP))
    (by
      intro w hw
      obtain rfl := List.mem_singleton.1 hw
      exact hfits.shrinks _ hP)
  have hdx : g2.dx = fun _ => 1 := funext c2.dx
  refine ⟨g2.fields, fun x => g2.data (o.local_.shape.rawOffset x), file', ?_, ⟨k2.text, ?_⟩, c3, ?_, ?_⟩
  · obtain ⟨rest, hrest⟩ := hfile.text
    have hfront := front_header (k := k) (dec := (fin d).dec) hnm hk hd hf g0 g1 dx rest
    rw [if_neg (by tauto)] at hfront
    have hrest' : header (fin d).dec (fin d).name d fields g0 g1 dx ++ rest = file := by rw [hrest, hin]
    rw [hrest'] at hfront
    have hb : body fin fout view pack conv file d = .ok file' := by
      unfold body
      rw [e1, Outcome.ok_bind]
      have : conv ⟨o.local_.shape, o.fields, o.dx, fun i => view (o.local_.data i)⟩ = .ok g2 := c1
      rw [this, Outcome.ok_bind]
      unfold written
      rw [hg2, hdx]
      rw [hout] at k1
      exact k1
    unfold convert
    rw [hfs]
    dsimp only
    rw [hfront, Outcome.ok_bind, hb]
  · have : (fun x => pack (g2.data (o.local_.shape.rawOffset x))) = cellAt (serialShape d g0 g1 (fun _ => .periodic) fun _ => .periodic) fun i => pack (g2.data i) := by
      funext x
      unfold cellAt
      rw [hraw]
    rw [this]
    exact k2.denotes
  · have : (fun t => ∃ x, InGlobal d g0 g1 x ∧ view (F x) = t) = fun t => ∃ i < Convert.size g, g.data (i : Nat) = t := by
      funext t
      apply propext
      constructor
      · rintro ⟨x, hx, rfl⟩
        obtain ⟨i, hi, he⟩ := hnum x hx
        exact ⟨i, hi, by rw [← he]; exact hval x hx⟩
      · rintro ⟨i, hi, rfl⟩
        obtain ⟨x, hx, he⟩ := hpt i hi
        exact ⟨x, hx, by rw [← he]; exact (hval x hx).symm⟩
    rw [this]
    exact c4
  · intro x hx
    obtain ⟨i, hi, he⟩ := hnum x hx
    rw [← hval x hx]
    beta_reduce
    rw [he]
    exact c5 i hi

/-- When the loops run into undefined behaviour for every grid with the limits and values of the file, so does the program. -/
theorem convert_ub [One D] {k : Kind} {fin : Nat → Format T D} {fout : Nat → Format U D} {view : T → T'} {pack : U' → U}
    {conv : Convert.Grid D T' → Outcome (Convert.Grid D U')} {d : Nat} (hd : 1 ≤ d ∧ d ≤ 3) (hin : (fin d).d = d)
    (hnm : newline ∉ (fin d).name) (hk : typeOk k (fin d).name = true) (hacc : checkType (fin d).name (fin d).name = .ok ())
    {fields : Int} (hf : IsInt fields) (hsingle : k.single = true → fields = 1) {g0 g1 : Nat → Int} (hg : ∀ j, j < d → g0 j < g1 j)
    (hpad : ∀ j, d ≤ j → g0 j = 0 ∧ g1 j = 0) {dx : Nat → D} {B0 B1 : Nat → BC}
    {F : (Nat → Int) → T} {file : List Byte} (hfile : Holds (fin d) fields g0 g1 dx B0 B1 F file)
    (hconv : ∀ g : Convert.Grid D T', g.shape.ghosts = 0 → g.shape.dim = d → g.shape.x0 = g0 → g.shape.x1 = g1 → g.fields = fields →
      (∀ t, (∃ i < Convert.size g, g.data (i : Nat) = t) ↔ ∃ x, InGlobal d g0 g1 x ∧ view (F x) = t) → conv g = .ub)
    {fs : Files} {infile : List Byte} (hfs : fs infile = some file) (out : Option (List Byte)) :
    convert k fin fout view pack conv fs infile out = (fs, .ub) := by
  obtain ⟨o, e1, e2, e3, e4, e5, e6, e6', e7⟩ := opened hin hacc (by omega) hg hpad hfile.denotes
  let g : Convert.Grid D T' := ⟨o.local_.shape, o.fields, o.dx, fun i => view (o.local_.data i)⟩
  have c1 : conv g = .ub := by
    refine hconv g e4 e3 e6 e6' e2 fun t => ⟨?_, ?_⟩
    · rintro ⟨i, hi, rfl⟩
      have hi' : (i : Int) < o.local_.shape.nodes := by
        have : i < o.local_.shape.nodes.toNat := hi
        omega
      obtain ⟨x, hx, he⟩ := Shape.rawOffset_surj e5 (n := (i : Int)) (by omega) (by rw [Convert.cells_eq e4]; exact hi')
      have hx' : InGlobal d g0 g1 x := fun j hj => by
        have := hx j (by rw [e3]; exact hj)
        rw [e4, e6, e6'] at this
        omega
      refine ⟨x, hx', ?_⟩
      rw [← (e7 x hx').2.2, he]
    · rintro ⟨x, hx, rfl⟩
      obtain ⟨h1, h2, h3⟩ := e7 x hx
      refine ⟨(o.local_.shape.rawOffset x).toNat, ?_, ?_⟩
      · change _ < o.local_.shape.nodes.toNat
        omega
      · rw [Int.toNat_of_nonneg h1]; exact congrArg view h3
  obtain ⟨rest, hrest⟩ := hfile.text
  have hfront := front_header (k := k) (dec := (fin d).dec) hnm hk hd hf g0 g1 dx rest
  rw [if_neg (by tauto)] at hfront
  have hrest' : header (fin d).dec (fin d).name d fields g0 g1 dx ++ rest = file := by rw [hrest, hin]
  rw [hrest'] at hfront
  have hb : body fin fout view pack conv file d = .ub := by
    unfold body
    rw [e1, Outcome.ok_bind]
    have : conv ⟨o.local_.shape, o.fields, o.dx, fun i => view (o.local_.data i)⟩ = .ub := c1
    rw [this, Outcome.ub_bind]
  unfold convert
  rw [hfs]
  dsimp only
  rw [hfront, Outcome.ok_bind, hb]

/-- Only the values at the nodes matter. -/
theorem Holds.congr {fmt : Format T D} {fields : Int} {g0 g1 : Nat → Int} {dx : Nat → D} {B0 B1 : Nat → BC} {F G : (Nat → Int) → T} {file : List Byte}
    (h : Holds fmt fields g0 g1 dx B0 B1 F file) (e : ∀ x, InGlobal fmt.d g0 g1 x → F x = G x) : Holds fmt fields g0 g1 dx B0 B1 G file := by
  refine ⟨h.text, h.denotes.congr fun x hx => e x fun j hj => ?_⟩
  have := hx j hj
  change (Meta.of fmt.dec fmt.d fields g0 g1 dx B0 B1).g0 j ≤ _ ∧ _ < (Meta.of fmt.dec fmt.d fields g0 g1 dx B0 B1).g1 j at this
  unfold Meta.g0 Meta.g1 Meta.of at this
  rw [getD_range hj] at this
  exact this

end Generic

/-! ## The six programs -/

section Programs
variable {α D : Type} [One D] {e : Env α D}

/-- A box of at most three dimensions with at least one node, whose limits are `int`s. Limits of axes that do not exist count as 0. -/
structure Box (d : Nat) (g0 g1 : Nat → Int) : Prop where
  dim : 1 ≤ d ∧ d ≤ 3
  side : ∀ j, j < d → g0 j < g1 j
  ints : ∀ j, j < d → IsInt (g0 j) ∧ IsInt (g1 j)
  pad : ∀ j, d ≤ j → g0 j = 0 ∧ g1 j = 0

/-- The grid that the programs write: the same box, periodic faces. -/
def outBox (d : Nat) (g0 g1 : Nat → Int) : Shape := serialShape d g0 g1 (fun _ => .periodic) fun _ => .periodic

/-- The output file: same box, spacing 1, periodic faces, whatever the input had. -/
def Out {T : Type} (fmt : Format T D) (fields : Int) (g0 g1 : Nat → Int) (F : (Nat → Int) → T) (file : List Byte) : Prop :=
  Holds fmt fields g0 g1 (fun _ => 1) (fun _ => .periodic) (fun _ => .periodic) F file

omit [One D] in
theorem mc_good (hz : Lawful e.comp) (d : Nat) (P : CInt → Prop) : (e.mc d).Good P :=
  ⟨primCell_roundTrips intCodec, hz, show newline ∉ gridName (ascii "int") by decide, show checkType (gridName (ascii "int")) (gridName (ascii "int")) = .ok () by decide, fun _ _ => trivial⟩

omit [One D] in
theorem pf_good (hz : Lawful e.comp) (d : Nat) {L : Nat} (hL : L < 2 ^ 31) : (e.pf d).Good fun v => v.length ≤ L :=
  ⟨vectorCell_roundTrips e.codec, hz, show newline ∉ gridName (ascii "vector:double") by decide,
    show checkType (gridName (ascii "vector:double")) (gridName (ascii "vector:double")) = .ok () by decide, fun _ h => lt_of_le_of_lt h hL⟩

omit [One D] in
theorem spf_good (hz : Lawful e.comp) (d : Nat) {L : Nat} (hL : L < 2 ^ 31) : (e.spf d).Good fun v => v.length ≤ L :=
  ⟨sparseCell_roundTrips e.codec e.pad e.pad0, hz, show newline ∉ gridName (ascii "sparse:double") by decide,
    show checkType (gridName (ascii "sparse:double")) (gridName (ascii "sparse:double")) = .ok () by decide, fun _ h => lt_of_le_of_lt h hL⟩

theorem toCInt_val {n : Int} (h : IsInt n) : (toCInt n).1 = n := by
  unfold toCInt
  rw [dif_pos (show -2 ^ 31 ≤ n ∧ n < 2 ^ 31 from h)]

theorem toCInt_eq (n : CInt) : toCInt n.1 = n := Subtype.ext (toCInt_val n.2)

theorem entries_items {pad : Nat} (pad0 : { l : List Byte // l.length = pad }) {c : Sparse.Cell α} (h : ∀ t ∈ c, IsInt t.1) : entries (items pad0 c) = c := by
  unfold entries items
  rw [List.map_map]
  refine (List.map_congr_left fun t ht => ?_).trans (List.map_id c)
  simp only [Function.comp_apply, toCInt_val (h t ht)]
  rfl

variable {d : Nat} {g0 g1 : Nat → Int} {fields : Int} {dx : Nat → D} {B0 B1 : Nat → BC} {file : List Byte} {fs : Files} {infile : List Byte}

/-- **C82.** `MC2PF` on the file of any run: the output holds at each node the vector that is 1 at the id and 0 elsewhere; the number of fields is one more
than the largest id. -/
theorem mc2pf_file [Zero α] [One α] (hz : Lawful e.comp) (hjunk : ∀ n, (e.junkVec n).length = n.toNat) (hbox : Box d g0 g1) (hf : IsInt fields)
    {F : (Nat → Int) → CInt} (hfile : Holds (e.mc d) fields g0 g1 dx B0 B1 F file) {L : Nat} (hL : L < 2 ^ 31)
    (hF : ∀ x, InGlobal d g0 g1 x → 0 ≤ (F x).1 ∧ (F x).1 < L) (hfits : Fits (e.pf d) (fun v => v.length ≤ L) (outBox d g0 g1))
    (hfs : fs infile = some file) (out : Option (List Byte)) :
    ∃ (fields' : Int) (F' : (Nat → Int) → List α) (file' : List Byte),
      mc2pf e fs infile out = (Function.update fs (target mc2pfKind infile out) (some file'), .ok ()) ∧ Out (e.pf d) fields' g0 g1 F' file' ∧
      IsInt fields' ∧ (∃ x, InGlobal d g0 g1 x ∧ (F x).1 = fields' - 1) ∧
      ∀ x, InGlobal d g0 g1 x → (F x).1 < fields' ∧ Convert.Indicator (F' x) fields'.toNat (F x).1 := by
  obtain ⟨f', F', file', h1, h2, h3, ⟨t, ⟨x, hx, rfl⟩, h4⟩, h5⟩ := convert_spec (k := mc2pfKind) (fin := e.mc) (fout := e.pf) (view := fun v : CInt => v.1) (pack := id)
    (conv := Convert.mc2pf fun fields _ => e.junkVec fields) (Q := fun n => 0 ≤ n ∧ n < L)
    (Rel := fun f n v => n < f ∧ Convert.Indicator v f.toNat n) (Ex := fun f p => ∃ t, p t ∧ t = f - 1) hbox.dim rfl rfl
    (show newline ∉ gridName (ascii "int") by decide) (show typeOk mc2pfKind (gridName (ascii "int")) = true by decide)
    (show checkType (gridName (ascii "int")) (gridName (ascii "int")) = .ok () by decide) (pf_good hz d hL) hf (fun h => by cases h)
    hbox.side hbox.pad hbox.ints hfile hfits hF (by
      intro g hg _ _ hs hq
      obtain ⟨g2, a1, a2, a3, a4, a5, a6⟩ := Convert.mc2pf_spec (fresh := fun fields _ => e.junkVec fields) (fun f _ => hjunk f) hg
        (fun i hi => ⟨(hq i hi).1, by have := (hq i hi).2; omega⟩)
      obtain ⟨i, hi, h⟩ := a5 (by omega)
      have hq' := (hq i hi).2
      refine ⟨g2, a1, a2, ⟨by omega, by omega⟩, ⟨_, ⟨i, hi, rfl⟩, h⟩, fun l hl => ⟨⟨a4 l hl, a6 l hl⟩, ?_⟩⟩
      have := (a6 l hl).1
      change (g2.data l).length ≤ L
      omega) hfs out
  exact ⟨f', F', file', h1, h2, h3, ⟨x, hx, h4⟩, fun y hy => (h5 y hy).1⟩

/-- **C82.** `MC2sPF` on the file of any run of a grid with one field: the output holds at each node the single entry 1 at the id. -/
theorem mc2spf_file [Zero α] [One α] (hz : Lawful e.comp) (hbox : Box d g0 g1) {F : (Nat → Int) → CInt} (hfile : Holds (e.mc d) 1 g0 g1 dx B0 B1 F file)
    (hfits : Fits (e.spf d) (fun v => v.length ≤ 1) (outBox d g0 g1)) (hfs : fs infile = some file) (out : Option (List Byte)) :
    ∃ file', mc2spf e fs infile out = (Function.update fs (target mc2spfKind infile out) (some file'), .ok ()) ∧
      Out (e.spf d) 0 g0 g1 (fun x => [(F x, e.pad0, 1)]) file' := by
  obtain ⟨f', F', file', h1, h2, h3, rfl, h5⟩ := convert_spec (k := mc2spfKind) (fin := e.mc) (fout := e.spf) (view := fun v : CInt => v.1) (pack := items e.pad0)
    (conv := Convert.mc2spf (α := α)) (Q := fun n => IsInt n)
    (Rel := fun _ n v => v = [(n, 1)]) (Ex := fun f _ => f = 0) hbox.dim rfl rfl
    (show newline ∉ gridName (ascii "int") by decide) (show typeOk mc2spfKind (gridName (ascii "int")) = true by decide)
    (show checkType (gridName (ascii "int")) (gridName (ascii "int")) = .ok () by decide) (spf_good hz d (L := 1) (by decide)) ⟨by decide, by decide⟩ (fun _ => rfl)
    hbox.side hbox.pad hbox.ints hfile hfits (fun x _ => (F x).2) (by
      intro g hg _ _ hs hq
      obtain ⟨g2, a1, a2, a3, a4⟩ := Convert.mc2spf_spec (α := α) hg
      refine ⟨g2, a1, a2, by rw [a3]; exact ⟨by decide, by decide⟩, a3, fun l hl => ⟨a4 l hl, ?_⟩⟩
      rw [a4 l hl]
      exact le_refl 1) hfs out
  refine ⟨file', h1, Holds.congr h2 fun x hx => ?_⟩
  rw [(h5 x hx).1]
  change [(toCInt (F x).1, e.pad0, 1)] = _
  rw [toCInt_eq]

/-- **C82.** `PF2MC` on the file of any run: the output holds at each node the first of the indices with the largest value. -/
theorem pf2mc_file [LinearOrder α] (hz : Lawful e.comp) (hbox : Box d g0 g1) (hf : IsInt fields) (h1f : 1 ≤ fields) {F : (Nat → Int) → List α}
    (hfile : Holds (e.pf d) fields g0 g1 dx B0 B1 F file) (hF : ∀ x, InGlobal d g0 g1 x → ((F x).length : Int) = fields)
    (hfits : Fits (e.mc d) (fun _ => True) (outBox d g0 g1)) (hfs : fs infile = some file) (out : Option (List Byte)) :
    ∃ (F' : (Nat → Int) → CInt) (file' : List Byte),
      pf2mc e fs infile out = (Function.update fs (target pf2mcKind infile out) (some file'), .ok ()) ∧ Out (e.mc d) 1 g0 g1 F' file' ∧
      ∀ x, InGlobal d g0 g1 x → ∃ k : Nat, (F' x).1 = k ∧ Convert.FirstMax (F x) k := by
  obtain ⟨f', F', file', h1, h2, h3, rfl, h5⟩ := convert_spec (k := pf2mcKind) (fin := e.pf) (fout := e.mc) (view := id) (pack := toCInt)
    (conv := Convert.pf2mc (α := α) fun _ => e.junk.1) (Q := fun v => (v.length : Int) = fields)
    (Rel := fun _ v n => IsInt n ∧ ∃ k : Nat, n = k ∧ Convert.FirstMax v k) (Ex := fun f _ => f = 1) hbox.dim rfl rfl
    (show newline ∉ gridName (ascii "vector:double") by decide) (show typeOk pf2mcKind (gridName (ascii "vector:double")) = true by decide)
    (show checkType (gridName (ascii "vector:double")) (gridName (ascii "vector:double")) = .ok () by decide) (mc_good hz d fun _ => True) hf (fun h => by cases h)
    hbox.side hbox.pad hbox.ints hfile hfits hF (by
      intro g hg _ hgf hs hq
      obtain ⟨g2, a1, a2, a3, a4⟩ := Convert.pf2mc_spec (fun _ => e.junk.1) hg (by rw [hgf]; exact h1f) (by rw [hgf]; exact hq)
      refine ⟨g2, a1, a2, by rw [a3]; exact ⟨by decide, by decide⟩, a3, fun l hl => ⟨⟨?_, a4 l hl⟩, trivial⟩⟩
      obtain ⟨k, b1, m, b2, -, -⟩ := a4 l hl
      obtain ⟨hk, -⟩ := List.getElem?_eq_some_iff.1 b2
      have := hq l hl
      have := hf.2
      rw [b1]
      exact ⟨by omega, by omega⟩) hfs out
  refine ⟨fun x => toCInt (F' x), file', h1, h2, fun x hx => ?_⟩
  obtain ⟨⟨b1, b2⟩, -⟩ := h5 x hx
  rw [toCInt_val b1]
  exact b2

omit [One D] in
theorem above_length [LinearOrder α] {eps : α} {v : List α} {c : Sparse.Cell α} (h : Convert.Above eps v c) :
    c.length ≤ v.length ∧ ∀ t ∈ c, 0 ≤ t.1 ∧ t.1 < v.length := by
  have hb : ∀ t ∈ c, 0 ≤ t.1 ∧ t.1 < v.length := by
    intro t ht
    obtain ⟨k, h1, h2, -⟩ := (h.mem t.1 t.2).1 ht
    obtain ⟨hk, -⟩ := List.getElem?_eq_some_iff.1 h2
    omega
  refine ⟨?_, hb⟩
  have hn : (Sparse.keys c).Nodup := h.sorted.imp fun a => ne_of_lt a
  have hs : Sparse.keys c ⊆ (List.range v.length).map fun k : Nat => (k : Int) := by
    intro j hj
    obtain ⟨t, ht, rfl⟩ := List.mem_map.1 hj
    have := hb t ht
    exact List.mem_map.2 ⟨t.1.toNat, List.mem_range.2 (by omega), by omega⟩
  have := (hn.subperm hs).length_le
  simpa [Sparse.keys] using this

/-- **C82.** `PF2sPF` on the file of any run: the output holds at each node the elements above the threshold, ordered by index. -/
theorem pf2spf_file [LinearOrder α] [Zero α] (hz : Lawful e.comp) (eps : α) (hbox : Box d g0 g1) (hf : IsInt fields) {F : (Nat → Int) → List α}
    (hfile : Holds (e.pf d) fields g0 g1 dx B0 B1 F file) (hF : ∀ x, InGlobal d g0 g1 x → ((F x).length : Int) = fields)
    (hfits : Fits (e.spf d) (fun v => v.length ≤ fields.toNat) (outBox d g0 g1)) (hfs : fs infile = some file) (out : Option (List Byte)) :
    ∃ (F' : (Nat → Int) → List (RawItem α e.pad)) (file' : List Byte),
      pf2spf e eps fs infile out = (Function.update fs (target pf2spfKind infile out) (some file'), .ok ()) ∧ Out (e.spf d) 0 g0 g1 F' file' ∧
      ∀ x, InGlobal d g0 g1 x → Convert.Above eps (F x) (entries (F' x)) := by
  have hf2 := hf.2
  obtain ⟨f', F', file', h1, h2, h3, rfl, h5⟩ := convert_spec (k := pf2spfKind) (fin := e.pf) (fout := e.spf) (view := id) (pack := items e.pad0)
    (conv := Convert.pf2spf (α := α) eps) (Q := fun v => (v.length : Int) = fields)
    (Rel := fun _ v c => (v.length : Int) = fields ∧ Convert.Above eps v c) (Ex := fun f _ => f = 0) hbox.dim rfl rfl
    (show newline ∉ gridName (ascii "vector:double") by decide) (show typeOk pf2spfKind (gridName (ascii "vector:double")) = true by decide)
    (show checkType (gridName (ascii "vector:double")) (gridName (ascii "vector:double")) = .ok () by decide)
    (spf_good hz d (L := fields.toNat) (by omega)) hf (fun h => by cases h)
    hbox.side hbox.pad hbox.ints hfile hfits hF (by
      intro g hg _ hgf hs hq
      obtain ⟨g2, a1, a2, a3, a4⟩ := Convert.pf2spf_spec eps hg (by rw [hgf]; exact hq)
      refine ⟨g2, a1, a2, by rw [a3]; exact ⟨by decide, by decide⟩, a3, fun l hl => ⟨⟨hq l hl, a4 l hl⟩, ?_⟩⟩
      have := (above_length (a4 l hl)).1
      have := hq l hl
      change (items e.pad0 (g2.data l)).length ≤ _
      rw [items, List.length_map]
      omega) hfs out
  refine ⟨fun x => items e.pad0 (F' x), file', h1, h2, fun x hx => ?_⟩
  obtain ⟨⟨b0, b1⟩, -⟩ := h5 x hx
  change (((F x).length : Nat) : Int) = fields at b0
  rw [entries_items e.pad0 fun t ht => ?_]
  · exact b1
  · have h : 0 ≤ t.1 ∧ t.1 < ((F x).length : Int) := (above_length b1).2 t ht
    exact ⟨by omega, by omega⟩

theorem sparseMax_int [LinearOrder α] [Zero α] {pad : Nat} {v : List (RawItem α pad)} {id : Int} (h : Convert.SparseMax (entries v) id) : IsInt id := by
  rcases h with ⟨k, m, h1, -, -⟩ | ⟨rfl, -⟩
  · have := List.mem_of_getElem? h1
    obtain ⟨it, -, he⟩ := List.mem_map.1 this
    obtain rfl := (Prod.mk.inj he).1
    exact it.1.2
  · exact ⟨by decide, by decide⟩

/-- **C82.** `sPF2MC` on the file of any run: the output holds at each node the index of the first entry with the largest positive value, or 0. -/
theorem spf2mc_file [LinearOrder α] [Zero α] (hz : Lawful e.comp) (hbox : Box d g0 g1) (hf : IsInt fields) {F : (Nat → Int) → List (RawItem α e.pad)}
    (hfile : Holds (e.spf d) fields g0 g1 dx B0 B1 F file) (hfits : Fits (e.mc d) (fun _ => True) (outBox d g0 g1)) (hfs : fs infile = some file)
    (out : Option (List Byte)) :
    ∃ (F' : (Nat → Int) → CInt) (file' : List Byte),
      spf2mc e fs infile out = (Function.update fs (target spf2mcKind infile out) (some file'), .ok ()) ∧ Out (e.mc d) 1 g0 g1 F' file' ∧
      ∀ x, InGlobal d g0 g1 x → Convert.SparseMax (entries (F x)) (F' x).1 := by
  obtain ⟨f', F', file', h1, h2, h3, rfl, h5⟩ := convert_spec (k := spf2mcKind) (fin := e.spf) (fout := e.mc) (view := entries) (pack := toCInt)
    (conv := Convert.spf2mc (α := α) fun _ => e.junk.1) (Q := fun _ => True)
    (Rel := fun _ v n => Convert.SparseMax v n) (Ex := fun f _ => f = 1) hbox.dim rfl rfl
    (show newline ∉ gridName (ascii "sparse:double") by decide) (show typeOk spf2mcKind (gridName (ascii "sparse:double")) = true by decide)
    (show checkType (gridName (ascii "sparse:double")) (gridName (ascii "sparse:double")) = .ok () by decide) (mc_good hz d fun _ => True) hf (fun h => by cases h)
    hbox.side hbox.pad hbox.ints hfile hfits (fun _ _ => trivial) (by
      intro g hg _ hgf hs hq
      obtain ⟨g2, a1, a2, a3, a4⟩ := Convert.spf2mc_spec (fun _ => e.junk.1) hg
      exact ⟨g2, a1, a2, by rw [a3]; exact ⟨by decide, by decide⟩, a3, fun l hl => ⟨a4 l hl, trivial⟩⟩) hfs out
  refine ⟨fun x => toCInt (F' x), file', h1, h2, fun x hx => ?_⟩
  have := (h5 x hx).1
  rw [toCInt_val (sparseMax_int this)]
  exact this

/-- **C82.** `sPF2PF` in one or two dimensions on the file of any run: the output holds at each node the vector with the values of the entries, 0 elsewhere; the
number of fields is one more than the largest index, and at least 1. -/
theorem spf2pf_file [Zero α] (hz : Lawful e.comp) (hjunk : ∀ n, (e.junkVec n).length = n.toNat) (hbox : Box d g0 g1) (h3 : d ≠ 3) (hf : IsInt fields)
    {F : (Nat → Int) → List (RawItem α e.pad)} (hfile : Holds (e.spf d) fields g0 g1 dx B0 B1 F file) {L : Nat} (hL : L < 2 ^ 31) (h1L : 1 ≤ L)
    (hF : ∀ x, InGlobal d g0 g1 x → Sparse.Ok (entries (F x)) ∧ ∀ j ∈ Sparse.keys (entries (F x)), 0 ≤ j ∧ j < L)
    (hfits : Fits (e.pf d) (fun v => v.length ≤ L) (outBox d g0 g1)) (hfs : fs infile = some file) (out : Option (List Byte)) :
    ∃ (fields' : Int) (F' : (Nat → Int) → List α) (file' : List Byte),
      spf2pf e fs infile out = (Function.update fs (target spf2pfKind infile out) (some file'), .ok ()) ∧ Out (e.pf d) fields' g0 g1 F' file' ∧
      IsInt fields' ∧ 1 ≤ fields' ∧ (fields' = 1 ∨ ∃ x, InGlobal d g0 g1 x ∧ fields' - 1 ∈ Sparse.keys (entries (F x))) ∧
      ∀ x, InGlobal d g0 g1 x → (∀ j ∈ Sparse.keys (entries (F x)), j < fields') ∧ (F' x).length = fields'.toNat ∧
        ∀ j : Nat, j < fields'.toNat → (F' x)[j]? = some (Sparse.get (entries (F x)) j) := by
  obtain ⟨f', F', file', h1, h2, h3, ⟨h4, h4'⟩, h5⟩ := convert_spec (k := spf2pfKind) (fin := e.spf) (fout := e.pf) (view := entries) (pack := id)
    (conv := Convert.spf2pf fun fields _ => e.junkVec fields) (Q := fun c => Sparse.Ok c ∧ ∀ j ∈ Sparse.keys c, 0 ≤ j ∧ j < L)
    (Rel := fun f c v => (∀ j ∈ Sparse.keys c, j < f) ∧ v.length = f.toNat ∧ ∀ j : Nat, j < f.toNat → v[j]? = some (Sparse.get c j))
    (Ex := fun f p => 1 ≤ f ∧ (f = 1 ∨ ∃ t, p t ∧ f - 1 ∈ Sparse.keys t)) hbox.dim rfl rfl
    (show newline ∉ gridName (ascii "sparse:double") by decide) (show typeOk spf2pfKind (gridName (ascii "sparse:double")) = true by decide)
    (show checkType (gridName (ascii "sparse:double")) (gridName (ascii "sparse:double")) = .ok () by decide) (pf_good hz d hL) hf (fun h => by cases h)
    hbox.side hbox.pad hbox.ints hfile hfits hF (by
      intro g hg hgd _ hs hq
      obtain ⟨g2, a1, a2, a3, a4, a5, a6⟩ := Convert.spf2pf_spec (fresh := fun fields _ => e.junkVec fields) (fun f _ => hjunk f) hg (by omega)
        (fun i hi => ⟨(hq i hi).1, fun j hj => ⟨((hq i hi).2 j hj).1, by have := ((hq i hi).2 j hj).2; omega⟩⟩)
      have hle : g2.fields ≤ L := by
        rcases a5 with a5 | ⟨i, hi, hj⟩
        · omega
        · have := ((hq i hi).2 _ hj).2; omega
      refine ⟨g2, a1, a2, ⟨by omega, by omega⟩, ⟨a3, ?_⟩, fun l hl => ⟨⟨a4 l hl, a6 l hl⟩, ?_⟩⟩
      · rcases a5 with a5 | ⟨i, hi, hj⟩
        · exact .inl a5
        · exact .inr ⟨_, ⟨i, hi, rfl⟩, hj⟩
      · have := (a6 l hl).1
        change (g2.data l).length ≤ L
        omega) hfs out
  refine ⟨f', F', file', h1, h2, h3, h4, ?_, fun y hy => (h5 y hy).1⟩
  rcases h4' with h | ⟨t, ⟨x, hx, rfl⟩, h⟩
  · exact .inl h
  · exact .inr ⟨x, hx, h⟩

/-! ## Undefined behaviour -/

/-- **C82.** A negative id anywhere makes `MC2PF` write before the start of a vector. -/
theorem mc2pf_file_negative [Zero α] [One α] (hjunk : ∀ n, (e.junkVec n).length = n.toNat) (hbox : Box d g0 g1) (hf : IsInt fields)
    {F : (Nat → Int) → CInt} (hfile : Holds (e.mc d) fields g0 g1 dx B0 B1 F file) (hF : ∀ x, InGlobal d g0 g1 x → (F x).1 < 2 ^ 31 - 1)
    (hneg : ∃ x, InGlobal d g0 g1 x ∧ (F x).1 < 0) (hfs : fs infile = some file) (out : Option (List Byte)) :
    mc2pf e fs infile out = (fs, .ub) := by
  refine convert_ub (k := mc2pfKind) (fin := e.mc) hbox.dim rfl
    (show newline ∉ gridName (ascii "int") by decide) (show typeOk mc2pfKind (gridName (ascii "int")) = true by decide)
    (show checkType (gridName (ascii "int")) (gridName (ascii "int")) = .ok () by decide) hf (fun h => by cases h) hbox.side hbox.pad hfile ?_ hfs out
  intro g hg hd _ _ _ hv
  refine Convert.mc2pf_negative (fresh := fun fields _ => e.junkVec fields) (fun f _ => hjunk f) hg (fun i hi => ?_) ?_
  · obtain ⟨x, hx, h⟩ := (hv _).1 ⟨i, hi, rfl⟩
    rw [← h]; exact hF x hx
  · obtain ⟨x, hx, h⟩ := hneg
    obtain ⟨i, hi, he⟩ := (hv _).2 ⟨x, hx, rfl⟩
    exact ⟨i, hi, by rw [he]; exact h⟩

/-- **C82.** In three dimensions `sPF2PF` writes past the end of a two-dimensional grid, whatever the file holds (unless it is a single layer). -/
theorem spf2pf_file_3d [Zero α] (hjunk : ∀ n, (e.junkVec n).length = n.toNat) (hbox : Box 3 g0 g1) (hz : g0 2 + 1 < g1 2) (hf : IsInt fields)
    {F : (Nat → Int) → List (RawItem α e.pad)} (hfile : Holds (e.spf 3) fields g0 g1 dx B0 B1 F file)
    (hF : ∀ x, InGlobal 3 g0 g1 x → Sparse.Ok (entries (F x)) ∧ ∀ j ∈ Sparse.keys (entries (F x)), 0 ≤ j ∧ j < 2 ^ 31 - 1)
    (hfs : fs infile = some file) (out : Option (List Byte)) : spf2pf e fs infile out = (fs, .ub) := by
  refine convert_ub (k := spf2pfKind) (fin := e.spf) hbox.dim rfl
    (show newline ∉ gridName (ascii "sparse:double") by decide) (show typeOk spf2pfKind (gridName (ascii "sparse:double")) = true by decide)
    (show checkType (gridName (ascii "sparse:double")) (gridName (ascii "sparse:double")) = .ok () by decide) hf (fun h => by cases h) hbox.side hbox.pad hfile ?_ hfs out
  intro g hg hd hx0 hx1 _ hv
  refine Convert.spf2pf_3d (fresh := fun fields _ => e.junkVec fields) (fun f _ => hjunk f) hg hd ?_ ?_ ?_ fun i hi => ?_
  · rw [hx0, hx1]; exact hbox.side 0 (by decide)
  · rw [hx0, hx1]; exact hbox.side 1 (by decide)
  · rw [hx0, hx1]; exact hz
  · obtain ⟨x, hx, h⟩ := (hv _).1 ⟨i, hi, rfl⟩
    rw [← h]; exact hF x hx

/-! ## Round trips -/

/-- **C82.** `MC2PF` and then `PF2MC` on its output: every node has its id again; spacing and boundary conditions are lost. -/
theorem mc_pf_mc_files [LinearOrder α] [Zero α] [One α] (h01 : (0 : α) < 1) (hz : Lawful e.comp) (hjunk : ∀ n, (e.junkVec n).length = n.toNat) (hbox : Box d g0 g1)
    (hf : IsInt fields) {F : (Nat → Int) → CInt} (hfile : Holds (e.mc d) fields g0 g1 dx B0 B1 F file) {L : Nat} (hL : L < 2 ^ 31)
    (hF : ∀ x, InGlobal d g0 g1 x → 0 ≤ (F x).1 ∧ (F x).1 < L) (hfits : Fits (e.pf d) (fun v => v.length ≤ L) (outBox d g0 g1))
    (hfits' : Fits (e.mc d) (fun _ => True) (outBox d g0 g1)) (hfs : fs infile = some file) (out out' : Option (List Byte)) :
    ∃ file' file'', mc2pf e fs infile out = (Function.update fs (target mc2pfKind infile out) (some file'), .ok ()) ∧
      pf2mc e (mc2pf e fs infile out).1 (target mc2pfKind infile out) out' =
        (Function.update (mc2pf e fs infile out).1 (target pf2mcKind (target mc2pfKind infile out) out') (some file''), .ok ()) ∧
      Out (e.mc d) 1 g0 g1 F file'' := by
  obtain ⟨f', F', file', a1, a2, a3, ⟨x0, hx0, a4⟩, a5⟩ := mc2pf_file hz hjunk hbox hf hfile hL hF hfits hfs out
  have hpos : 1 ≤ f' := by have := (hF x0 hx0).1; omega
  obtain ⟨F'', file'', b1, b2, b3⟩ := pf2mc_file (fs := (mc2pf e fs infile out).1) (infile := target mc2pfKind infile out) hz hbox a3 hpos a2
    (fun x hx => by rw [(a5 x hx).2.1]; omega) hfits' (by rw [a1]; exact Function.update_self _ _ _) out'
  refine ⟨file', file'', a1, b1, Holds.congr b2 fun x hx => Subtype.ext ?_⟩
  obtain ⟨k, c1, c2⟩ := b3 x hx
  obtain ⟨d1, d2⟩ := a5 x hx
  obtain ⟨n, hn⟩ := Int.eq_ofNat_of_zero_le (hF x hx).1
  rw [hn] at d1 d2 ⊢
  rw [c1, Convert.firstMax_unique c2 (Convert.firstMax_indicator h01 d2 (by omega))]

/-- **C82.** `MC2sPF` and then `sPF2MC` on its output: every node has its id again, even a negative one. -/
theorem mc_spf_mc_files [LinearOrder α] [Zero α] [One α] (h01 : (0 : α) < 1) (hz : Lawful e.comp) (hbox : Box d g0 g1) {F : (Nat → Int) → CInt}
    (hfile : Holds (e.mc d) 1 g0 g1 dx B0 B1 F file) (hfits : Fits (e.spf d) (fun v => v.length ≤ 1) (outBox d g0 g1))
    (hfits' : Fits (e.mc d) (fun _ => True) (outBox d g0 g1)) (hfs : fs infile = some file) (out out' : Option (List Byte)) :
    ∃ file' file'', mc2spf e fs infile out = (Function.update fs (target mc2spfKind infile out) (some file'), .ok ()) ∧
      spf2mc e (mc2spf e fs infile out).1 (target mc2spfKind infile out) out' =
        (Function.update (mc2spf e fs infile out).1 (target spf2mcKind (target mc2spfKind infile out) out') (some file''), .ok ()) ∧
      Out (e.mc d) 1 g0 g1 F file'' := by
  obtain ⟨file', a1, a2⟩ := mc2spf_file hz hbox hfile hfits hfs out
  obtain ⟨F'', file'', b1, b2, b3⟩ := spf2mc_file (fs := (mc2spf e fs infile out).1) (infile := target mc2spfKind infile out) hz hbox ⟨by decide, by decide⟩ a2
    hfits' (by rw [a1]; exact Function.update_self _ _ _) out'
  refine ⟨file', file'', a1, b1, Holds.congr b2 fun x hx => Subtype.ext ?_⟩
  exact Convert.sparseMax_single h01 (b3 x hx)

/-! ## Other types -/

omit [One D] in
/-- The type is tested again when the grid is read. -/
theorem convert_retest {T U T' U' : Type} {k : Kind} {fin : Nat → Format T D} {fout : Nat → Format U D} {view : T → T'} {pack : U' → U}
    {conv : Convert.Grid D T' → Outcome (Convert.Grid D U')} (hd : 1 ≤ d ∧ d ≤ 3) {nm : List Byte} (hnm : newline ∉ nm) (hk : typeOk k nm = true)
    (hs : k.single = true → fields = 1) (hf : IsInt fields) (hc : checkType (fin d).name nm = .abort (-2)) {dec : Decimal D} {rest : List Byte}
    (hfs : fs infile = some (header dec nm d fields g0 g1 dx ++ rest)) (out : Option (List Byte)) :
    convert k fin fout view pack conv fs infile out = (fs, .abort (-2)) := by
  have hfront := front_header (k := k) (dec := dec) hnm hk hd hf g0 g1 dx rest
  rw [if_neg (by tauto)] at hfront
  have hb : body fin fout view pack conv (header dec nm d fields g0 g1 dx ++ rest) d = .abort (-2) := by
    unfold body input inputHeader header
    rw [List.append_assoc, List.cons_append, getline_append hnm]
    dsimp only
    rw [hc]
    rfl
  unfold convert
  rw [hfs]
  dsimp only
  rw [hfront, Outcome.ok_bind, hb]

/-- **C82.** The tests of the type line ask for "int or scalar::int", "vector::double" and "sparse::double" by looking for words. Grids of `unsigned int`,
`short int`, `scalar<int>` and of vectors or sparse cells of `long double` pass them; the programs then stop with -2 when the grid is read. No file changes. -/
theorem other_types [LinearOrder α] [Zero α] [One α] (eps : α) (hd : 1 ≤ d ∧ d ≤ 3) {nm : List Byte} {dec : Decimal D} {rest : List Byte}
    (hfs : fs infile = some (header dec (gridName nm) d 1 g0 g1 dx ++ rest)) (out : Option (List Byte)) :
    (nm = ascii "unsigned int" ∨ nm = ascii "scalar:int" ∨ nm = ascii "short int" →
      mc2pf e fs infile out = (fs, .abort (-2)) ∧ mc2spf e fs infile out = (fs, .abort (-2))) ∧
    (nm = ascii "vector:long double" → pf2mc e fs infile out = (fs, .abort (-2)) ∧ pf2spf e eps fs infile out = (fs, .abort (-2))) ∧
    (nm = ascii "sparse:long double" → spf2mc e fs infile out = (fs, .abort (-2)) ∧ spf2pf e fs infile out = (fs, .abort (-2))) := by
  refine ⟨fun h => ⟨?_, ?_⟩, fun h => ⟨?_, ?_⟩, fun h => ⟨?_, ?_⟩⟩
  · refine convert_retest hd (nm := gridName nm) ?_ ?_ (fun h => by cases h) ⟨by decide, by decide⟩ ?_ hfs out
    · rcases h with rfl | rfl | rfl <;> decide
    · rcases h with rfl | rfl | rfl <;> decide
    · change checkType (gridName (ascii "int")) _ = _
      rcases h with rfl | rfl | rfl <;> decide
  · refine convert_retest hd (nm := gridName nm) ?_ ?_ (fun _ => rfl) ⟨by decide, by decide⟩ ?_ hfs out
    · rcases h with rfl | rfl | rfl <;> decide
    · rcases h with rfl | rfl | rfl <;> decide
    · change checkType (gridName (ascii "int")) _ = _
      rcases h with rfl | rfl | rfl <;> decide
  · subst h
    exact convert_retest hd (show newline ∉ gridName (ascii "vector:long double") by decide) (show typeOk pf2mcKind (gridName (ascii "vector:long double")) = true by decide) (fun h => by cases h)
      ⟨by decide, by decide⟩ (show checkType (gridName (ascii "vector:double")) (gridName (ascii "vector:long double")) = .abort (-2) by decide) hfs out
  · subst h
    exact convert_retest hd (show newline ∉ gridName (ascii "vector:long double") by decide) (show typeOk pf2spfKind (gridName (ascii "vector:long double")) = true by decide) (fun h => by cases h)
      ⟨by decide, by decide⟩ (show checkType (gridName (ascii "vector:double")) (gridName (ascii "vector:long double")) = .abort (-2) by decide) hfs out
  · subst h
    exact convert_retest hd (show newline ∉ gridName (ascii "sparse:long double") by decide) (show typeOk spf2mcKind (gridName (ascii "sparse:long double")) = true by decide) (fun h => by cases h)
      ⟨by decide, by decide⟩ (show checkType (gridName (ascii "sparse:double")) (gridName (ascii "sparse:long double")) = .abort (-2) by decide) hfs out
  · subst h
    exact convert_retest hd (show newline ∉ gridName (ascii "sparse:long double") by decide) (show typeOk spf2pfKind (gridName (ascii "sparse:long double")) = true by decide) (fun h => by cases h)
      ⟨by decide, by decide⟩ (show checkType (gridName (ascii "sparse:double")) (gridName (ascii "sparse:long double")) = .abort (-2) by decide) hfs out

omit [One D] in
/-- **C82.** Any other type line is refused with -1, and no file changes. -/
theorem convert_refuses {T U T' U' : Type} {k : Kind} {fin : Nat → Format T D} {fout : Nat → Format U D} {view : T → T'} {pack : U' → U}
    {conv : Convert.Grid D T' → Outcome (Convert.Grid D U')} {nm : List Byte} (hnm : newline ∉ nm) {rest : List Byte}
    (hfs : fs infile = some (nm ++ newline :: rest)) (out : Option (List Byte))
    (hk : nm.take 4 ≠ ascii "grid" ∨ (∃ w ∈ k.need, WrongEndian.finds w nm = false) ∨ ∃ w ∈ k.avoid, WrongEndian.finds w nm = true) :
    convert k fin fout view pack conv fs infile out = (fs, .abort (-1)) := by
  have hk' : typeOk k nm = false := by
    unfold typeOk
    rcases hk with h | ⟨w, hw, h⟩ | ⟨w, hw, h⟩
    · simp [h]
    · rw [List.all_eq_false.2 ⟨w, hw, by simp [h]⟩]; simp
    · rw [List.all_eq_false (l := k.avoid).2 ⟨w, hw, by simp [h]⟩]; simp
  unfold convert
  rw [hfs]
  dsimp only
  rw [front_refuses hnm hk', Outcome.abort_bind]

/-- **C82.** Which type lines each of the six programs refuses, leaving all files as they were: those that do not start with "grid", `MC2PF` and `MC2sPF`
those without "int" and those with "vector" or "sparse", the others those without "double" and those without "vector" (`PF2MC`, `PF2sPF`) or "sparse" (`sPF2MC`,
`sPF2PF`). -/
theorem programs_refuse [LinearOrder α] [Zero α] [One α] (eps : α) {nm : List Byte} (hnm : newline ∉ nm) {rest : List Byte}
    (hfs : fs infile = some (nm ++ newline :: rest)) (out : Option (List Byte)) :
    (nm.take 4 ≠ ascii "grid" ∨ WrongEndian.finds (ascii "int") nm = false ∨ WrongEndian.finds (ascii "vector") nm = true ∨ WrongEndian.finds (ascii "sparse") nm = true →
      mc2pf e fs infile out = (fs, .abort (-1)) ∧ mc2spf e fs infile out = (fs, .abort (-1))) ∧
    (nm.take 4 ≠ ascii "grid" ∨ WrongEndian.finds (ascii "vector") nm = false ∨ WrongEndian.finds (ascii "double") nm = false →
      pf2mc e fs infile out = (fs, .abort (-1)) ∧ pf2spf e eps fs infile out = (fs, .abort (-1))) ∧
    (nm.take 4 ≠ ascii "grid" ∨ WrongEndian.finds (ascii "sparse") nm = false ∨ WrongEndian.finds (ascii "double") nm = false →
      spf2mc e fs infile out = (fs, .abort (-1)) ∧ spf2pf e fs infile out = (fs, .abort (-1))) := by
  refine ⟨fun h => ⟨?_, ?_⟩, fun h => ⟨?_, ?_⟩, fun h => ⟨?_, ?_⟩⟩
  · refine convert_refuses hnm hfs out ?_
    rcases h with h | h | h | h
    · exact .inl h
    · exact .inr (.inl ⟨_, .head _, h⟩)
    · exact .inr (.inr ⟨_, .head _, h⟩)
    · exact .inr (.inr ⟨_, .tail _ (.head _), h⟩)
  · refine convert_refuses hnm hfs out ?_
    rcases h with h | h | h | h
    · exact .inl h
    · exact .inr (.inl ⟨_, .head _, h⟩)
    · exact .inr (.inr ⟨_, .head _, h⟩)
    · exact .inr (.inr ⟨_, .tail _ (.head _), h⟩)
  all_goals
    refine convert_refuses hnm hfs out ?_
    rcases h with h | h | h
    · exact .inl h
    · exact .inr (.inl ⟨_, .head _, h⟩)
    · exact .inr (.inl ⟨_, .tail _ (.head _), h⟩)

/-- **C82.** `MC2sPF` refuses files that announce more or fewer than one field; `MC2PF` does not look. -/
theorem mc2spf_one_field [Zero α] [One α] (hd : 1 ≤ d ∧ d ≤ 3) {n : Int} (hn : IsInt n) {dec : Decimal D} {rest : List Byte}
    (hfs : fs infile = some (header dec (gridName (ascii "int")) d n g0 g1 dx ++ rest)) (out : Option (List Byte)) :
    (n ≠ 1 → mc2spf e fs infile out = (fs, .abort (-1))) ∧
    front mc2pfKind (header dec (gridName (ascii "int")) d n g0 g1 dx ++ rest) = .ok d := by
  constructor
  · intro h1
    have hfront := front_header (k := mc2spfKind) (dec := dec) (nm := gridName (ascii "int")) (by decide) (by decide) hd hn g0 g1 dx rest
    rw [if_pos ⟨rfl, h1⟩] at hfront
    unfold mc2spf convert
    rw [hfs]
    dsimp only
    rw [hfront, Outcome.abort_bind]
  · have hfront := front_header (k := mc2pfKind) (dec := dec) (nm := gridName (ascii "int")) (by decide) (by decide) hd hn g0 g1 dx rest
    rwa [if_neg (by rintro ⟨h, -⟩; cases h)] at hfront

omit [One D] in
/-- **C82.** A second argument is the name of the output. Without one it is named after the input: what follows the last dot is replaced. -/
theorem default_names (a : List Byte) {u : List Byte} (hu : dot ∉ u) :
    (∀ k infile out, target k infile (some out) = out) ∧
    target mc2pfKind (a ++ dot :: u) none = a ++ ascii ".PF" ∧ target spf2pfKind (a ++ dot :: u) none = a ++ ascii ".PF" ∧
    target mc2spfKind (a ++ dot :: u) none = a ++ ascii ".sPF" ∧ target pf2spfKind (a ++ dot :: u) none = a ++ ascii ".sPF" ∧
    target pf2mcKind (a ++ dot :: u) none = a ++ ascii ".MC" ∧ target spf2mcKind (a ++ dot :: u) none = a ++ ascii ".MC" := by
  have h : ∀ ext, stemName ext (a ++ dot :: u) = a ++ ext := fun ext => by
    unfold stemName
    rw [lastDot_append hu]
    dsimp only
    rw [List.take_left]
  exact ⟨fun _ _ _ => rfl, h _, h _, h _, h _, h _, h _⟩

/-- **C82.** An input that cannot be opened ends the programs with -1; no file is made. -/
theorem missing_input [LinearOrder α] [Zero α] [One α] (eps : α) (hfs : fs infile = none) (out : Option (List Byte)) :
    mc2pf e fs infile out = (fs, .abort (-1)) ∧ mc2spf e fs infile out = (fs, .abort (-1)) ∧ pf2mc e fs infile out = (fs, .abort (-1)) ∧
    pf2spf e eps fs infile out = (fs, .abort (-1)) ∧ spf2mc e fs infile out = (fs, .abort (-1)) ∧ spf2pf e fs infile out = (fs, .abort (-1)) := by
  unfold mc2pf mc2spf pf2mc pf2spf spf2mc spf2pf convert
  rw [hfs]
  exact ⟨rfl, rfl, rfl, rfl, rfl, rfl⟩

/-- **C82.** Whatever the type line and the rest, files that announce a dimension other than 1, 2 and 3 end the programs with -1; no file is made. -/
theorem other_dimensions [LinearOrder α] [Zero α] [One α] (eps : α) {nm : List Byte} (hnm : newline ∉ nm) {n : Int} (hn : IsInt n) (h : n < 1 ∨ 3 < n) {rest : List Byte}
    (hfs : fs infile = some (nm ++ newline :: (intDec n ++ newline :: rest))) (out : Option (List Byte)) :
    mc2pf e fs infile out = (fs, .abort (-1)) ∧ mc2spf e fs infile out = (fs, .abort (-1)) ∧ pf2mc e fs infile out = (fs, .abort (-1)) ∧
    pf2spf e eps fs infile out = (fs, .abort (-1)) ∧ spf2mc e fs infile out = (fs, .abort (-1)) ∧ spf2pf e fs infile out = (fs, .abort (-1)) := by
  have hfront : ∀ k, front k (nm ++ newline :: (intDec n ++ newline :: rest)) = .abort (-1) := fun k => by
    have e1 := fun r => extract_intDec (n := n) hn (ws := []) (by simp) r none
    simp only [List.nil_append] at e1
    unfold front
    rw [getline_append hnm]
    simp only [e1]
    split_ifs
    · rfl
    · rfl
    all_goals omega
  unfold mc2pf mc2spf pf2mc pf2spf spf2mc spf2pf convert
  rw [hfs]
  dsimp only
  simp only [hfront, Outcome.abort_bind]
  trivial

/-- `run.7.sPF` converts to `run.7.MC`; a file "grid:scalar:int" with 4 in its second line, one without "int", no files at all. -/
example {e : Env α D} [LinearOrder α] [Zero α] [One α] : target spf2mcKind (ascii "run.7.sPF") none = ascii "run.7.MC" ∧
    (mc2pf e (fun _ => some (ascii "grid:scalar:int" ++ newline :: (intDec 4 ++ newline :: []))) [1] none).2 = .abort (-1) ∧
    (mc2spf e (fun _ => some (ascii "grid:vector:double" ++ newline :: [])) [1] none).2 = .abort (-1) ∧ (spf2pf e (fun _ => none) [1] none).2 = .abort (-1) :=
  ⟨(default_names (ascii "run.7") (u := ascii "sPF") (by decide)).2.2.2.2.2.2,
    congrArg Prod.snd (other_dimensions 0 (nm := ascii "grid:scalar:int") (n := 4) (rest := []) (by decide) ⟨by decide, by decide⟩ (.inr (by decide)) (by rfl) none).1,
    congrArg Prod.snd ((programs_refuse 0 (nm := ascii "grid:vector:double") (rest := []) (by decide) (by rfl) none).1 (.inr (.inl (by decide)))).2,
    congrArg Prod.snd (missing_input 0 (by rfl) none).2.2.2.2.2⟩

end Programs

/-! ## Without compression -/

/-- Grids of vectors or sparse cells of bounded length, not compressed, can be written if the byte count stays within `unsigned long`. -/
theorem array_fits {T D : Type} {fmt : Format (List T) D} (hcomp : fmt.comp = none) {c : Codec T} (hcell : fmt.cell = arrayCell c) {g : Shape} (hg : g.Wf) {L : Nat}
    (hsize : sites g * (4 + L * c.width) < 2 ^ 63) : Fits fmt (fun v => v.length ≤ L) g := by
  have hin : AllIn g (visited g 1 g.x0 g.x1 g.dim 0) := by
    rw [visited_full]
    intro o ho
    obtain ⟨x, hx, rfl⟩ := List.mem_map.mp ho
    refine Shape.rawOffset_bounds hg fun j hj => ?_
    have := points_region (by decide) hx j hj
    have := hg.ghosts
    omega
  refine ⟨fun data hd n hn => ?_, fun data _ z raw hz => ?_⟩
  · rw [hcell] at hn
    unfold bufferSize at hn
    rw [regionSize_eq _ le_rfl hin] at hn
    obtain rfl := Outcome.ok.inj hn
    have hle := List.sum_le_card_nsmul ((visited g 1 g.x0 g.x1 g.dim 0).map fun o => (arrayCell c).size (data o)) (4 + L * c.width) (by
      intro n hn
      obtain ⟨o, ho, rfl⟩ := List.mem_map.1 hn
      have := hin o ho
      have := Nat.mul_le_mul_right c.width (hd o this.1 this.2)
      simp only [arrayCell]
      omega)
    have hlen : (visited g 1 g.x0 g.x1 g.dim 0).length = sites g := by
      rw [visited_full, List.length_map, points_length _ _ _ le_rfl, Nat.sub_self]
      unfold sites
      rw [Finset.range_eq_Ico]
    rw [List.length_map, hlen, smul_eq_mul] at hle
    omega
  · rw [hcomp] at hz; cases hz

/-! ## Examples -/

namespace Example

instance : One { n : Int // -2 ^ 31 ≤ n ∧ n < 2 ^ 31 } := ⟨⟨1, by decide⟩⟩

def finCodec : Codec (Fin 256) where
  width := 1
  enc := fun v => [UInt8.ofNat v.1]
  dec := fun b => match b with | [] => 0 | x :: _ => ⟨x.toNat, x.toNat_lt⟩
  enc_length := fun _ => rfl
  dec_enc := fun v => by
    apply Fin.ext
    simp only [UInt8.toNat_ofNat']
    exact Nat.mod_eq_of_lt v.2

def env : Env (Fin 256) { n : Int // -2 ^ 31 ≤ n ∧ n < 2 ^ 31 } where
  comp := none
  dec := wholeDecimal
  dx0 := ⟨7, by decide⟩
  codec := finCodec
  pad := 2
  pad0 := ⟨[9, 9], rfl⟩
  junk := ⟨-5, by decide⟩
  junkVec := fun n => List.replicate n.toNat 77

def lo (j : Nat) : Int := if j = 0 then -1 else 0
def hi (j : Nat) : Int := if j = 0 then 3 else if j = 1 then 2 else 0

theorem box : Box 2 lo hi := by
  refine ⟨by decide, fun j hj => ?_, fun j hj => ?_, fun j hj => ?_⟩
  · obtain rfl | rfl : j = 0 ∨ j = 1 := by omega
    all_goals decide
  · obtain rfl | rfl : j = 0 ∨ j = 1 := by omega
    all_goals exact ⟨⟨by decide, by decide⟩, by decide, by decide⟩
  · unfold lo hi
    rw [if_neg (by omega), if_neg (by omega), if_neg (by omega)]
    exact ⟨rfl, rfl⟩

def shape : Shape := serialShape 2 lo hi (fun _ => .mirror) fun _ => .neumann
def ids (i : Int) : CInt := ⟨i % 5, by omega⟩

theorem wf (B0 B1 : Nat → BC) : (serialShape 2 lo hi B0 B1).Wf := ⟨show 0 < 2 by decide, fun j hj => box.side j hj, le_refl 0⟩

theorem fits_mc (B0 B1 : Nat → BC) : Fits (env.mc 2) (fun _ => True) (serialShape 2 lo hi B0 B1) :=
  (raw_fits rfl rfl _ (wf B0 B1) (by
    change sites (outBox 2 lo hi) * 4 + 16 * 2 + 16 < 2 ^ 31 - 1
    decide)).1

/-- There is such a file: a grid of 4 × 2 nodes with spacing 3 and mirror and Neumann faces. -/
theorem file_exists : ∃ file, Holds (env.mc 2) 1 lo hi (fun _ => ⟨3, by decide⟩) (fun _ => .mirror) (fun _ => .neumann) (cellAt shape ids) file := by
  obtain ⟨file, -, h⟩ := holds_of_run (env.mc 2) (primCell_roundTrips intCodec) (fun z h => by cases h) (show 0 < 2 by decide)
    (show IsInt 2 from ⟨by decide, by decide⟩) (show newline ∉ gridName (ascii "int") by decide) (fields := 1) ⟨by decide, by decide⟩
    (fun j hj => (box.side j hj).le) (fun j hj => box.ints j hj) (fun _ => ⟨3, by decide⟩)
    (serial_run (c := primCell intCodec) (d := 2) (fun j hj => (box.side j hj).le) (fun _ => .mirror) (fun _ => .neumann) (data := ids)
      (fun _ _ _ => trivial) ((fits_mc _ _).small _ fun _ _ _ => trivial))
    (by
      intro w hw
      obtain rfl := List.mem_singleton.1 hw
      exact (fits_mc _ _).shrinks _ fun _ _ _ => trivial)
  exact ⟨file, h⟩

theorem fits_pf : Fits (env.pf 2) (fun v => v.length ≤ 5) (outBox 2 lo hi) :=
  array_fits (c := finCodec) rfl rfl (wf _ _) (show sites (outBox 2 lo hi) * (4 + 5 * 1) < 2 ^ 63 by decide)

theorem fits_spf : Fits (env.spf 2) (fun v => v.length ≤ 1) (outBox 2 lo hi) :=
  array_fits (c := itemCodec finCodec 2 ⟨[9, 9], rfl⟩) rfl rfl (wf _ _) (show sites (outBox 2 lo hi) * (4 + 1 * (4 + 2 + 1)) < 2 ^ 63 by decide)

theorem ids_range (x : Nat → Int) : 0 ≤ (cellAt shape ids x).1 ∧ (cellAt shape ids x).1 < (5 : Nat) := by
  have h0 := Int.emod_nonneg (shape.rawOffset x) (show (5 : Int) ≠ 0 by decide)
  have h1 := Int.emod_lt_of_pos (shape.rawOffset x) (show (0 : Int) < 5 by decide)
  exact ⟨h0, h1⟩

/-- Both round trips on that file, with the default names: `a.MC`, `a.PF` or `a.sPF`, and over the input again. -/
example : ∃ fs : Files, (∃ file' file'', mc2pf env fs (ascii "a.MC") none = (Function.update fs (ascii "a.PF") (some file'), .ok ()) ∧
      pf2mc env (mc2pf env fs (ascii "a.MC") none).1 (ascii "a.PF") none = (Function.update (mc2pf env fs (ascii "a.MC") none).1 (ascii "a.MC") (some file''), .ok ()) ∧
      Out (env.mc 2) 1 lo hi (cellAt shape ids) file'') ∧
    ∃ file' file'', mc2spf env fs (ascii "a.MC") none = (Function.update fs (ascii "a.sPF") (some file'), .ok ()) ∧
      spf2mc env (mc2spf env fs (ascii "a.MC") none).1 (ascii "a.sPF") none = (Function.update (mc2spf env fs (ascii "a.MC") none).1 (ascii "a.MC") (some file''), .ok ()) ∧
      Out (env.mc 2) 1 lo hi (cellAt shape ids) file'' := by
  obtain ⟨file, h⟩ := file_exists
  have hlaw : Lawful env.comp := fun z h => by cases h
  have t1 : target mc2pfKind (ascii "a.MC") none = ascii "a.PF" := by decide
  have t2 : target pf2mcKind (ascii "a.PF") none = ascii "a.MC" := by decide
  have t3 : target mc2spfKind (ascii "a.MC") none = ascii "a.sPF" := by decide
  have t4 : target spf2mcKind (ascii "a.sPF") none = ascii "a.MC" := by decide
  refine ⟨fun _ => some file, ?_, ?_⟩
  · have := mc_pf_mc_files (fs := fun _ => some file) (infile := ascii "a.MC") (by decide) hlaw (fun n => List.length_replicate) box ⟨by decide, by decide⟩ h
      (L := 5) (by decide) (fun x _ => ids_range x) fits_pf (fits_mc _ _) rfl none none
    rwa [t1, t2] at this
  · have := mc_spf_mc_files (fs := fun _ => some file) (infile := ascii "a.MC") (by decide) hlaw box h fits_spf (fits_mc _ _) rfl none none
    rwa [t3, t4] at this

/-- A file that ends after the type line. -/
example : front mc2pfKind (gridName (ascii "int") ++ newline :: []) = .ub := front_cut (by decide) (by decide) (by decide)

/-- `MC2PF` refuses a grid of vectors, `PF2MC` a grid of `int`. -/
example : front mc2pfKind (ascii "grid:vector:int\n2\n") = .abort (-1) ∧ front pf2mcKind (ascii "grid:int\n2\n") = .abort (-1) ∧
    front mc2spfKind (ascii "grid:int\n2\n3\n") = .abort (-1) ∧ front mc2spfKind (ascii "grid:int\n2\n1\n") = .ok 2 ∧
    front mc2pfKind (ascii "grid:int\n4\n") = .abort (-1) := by decide

end Example

end MMSP.ConvertFile
