import Verif.Session
import Verif.ParallelRunProps
import Verif.ParallelOutputProps
import Verif.FileHeaderProps
/-!
# Sessions on different numbers of ranks continue one run
-/

namespace MMSP.Sessions

open FileIO ParallelRun Ghost Decomp

variable {T D : Type}

/-! ## Specification -/

/-- What a file says about the grid, apart from the values. -/
structure Meta (D : Type) where
  fields : Int
  limits : List (Int × Int)
  dx : List D
  faces : List (BC × BC)

namespace Meta
def g0 (m : Meta D) (j : Nat) : Int := (m.limits.getD j (0, 0)).1
def g1 (m : Meta D) (j : Nat) : Int := (m.limits.getD j (0, 0)).2
def spacing (m : Meta D) (dx0 : D) (j : Nat) : D := m.dx.getD j dx0
def B0 (m : Meta D) (j : Nat) : BC := (m.faces.getD j (.periodic, .periodic)).1
def B1 (m : Meta D) (j : Nat) : BC := (m.faces.getD j (.periodic, .periodic)).2

/-- The grid of the serial program. -/
def serial (m : Meta D) (d : Nat) : Shape := serialShape d m.g0 m.g1 m.B0 m.B1

/-- The grids of `np` ranks. -/
def world (m : Meta D) (d : Nat) (ghosts : Int) (np : Nat) : World :=
  { d := d, g0 := m.g0, g1 := m.g1, ghosts := ghosts, p := choose np d m.g0 m.g1, B0 := m.B0, B1 := m.B1 }

/-- A possible file header: limits and faces for each axis, numbers that fit, spacings that survive printing. -/
structure Good (m : Meta D) (fmt : Format T D) : Prop where
  dim : 0 < fmt.d
  dimInt : IsInt fmt.d
  limits : m.limits.length = fmt.d
  dx : m.dx.length = fmt.d
  faces : m.faces.length = fmt.d
  fields : IsInt m.fields
  box : ∀ j, j < fmt.d → m.g0 j ≤ m.g1 j
  ints : ∀ j, j < fmt.d → IsInt (m.g0 j) ∧ IsInt (m.g1 j)
  stable : ∀ v ∈ m.dx, fmt.dec.round6 v = v
end Meta

/-- The object `o` is the part of the field `F` that belongs to rank `r` of `np`: everything about the grid as in `m`, the box of
`setup()`, at each node the value of `F`, ghost cells as allocated, faces as in `m` on the outside and `parallel` on the inside. -/
structure Sees (fmt : Format T D) (m : Meta D) (F : (Nat → Int) → T) (bd : Build) (ghosts : Int) (np : Nat) (r : Int)
    (o : GridObject T D) : Prop where
  fields : o.fields = m.fields
  g0 : o.g0 = m.g0
  g1 : o.g1 = m.g1
  dx : o.dx = m.spacing fmt.dx0
  box : SameBox o.local_.shape (setupShape bd fmt.d m.g0 m.g1 ghosts np r)
  value : ∀ x, o.local_.shape.IsNode x → cellAt o.local_.shape o.local_.data x = F x
  ghost : ∀ x, o.local_.shape.IsCell x → ¬ o.local_.shape.IsNode x → cellAt o.local_.shape o.local_.data x = fmt.fresh m.fields
  faces : (∃ x, o.local_.shape.IsNode x) → PartOf fmt.d m.g0 m.g1 m.B0 m.B1 o.local_.shape

/-- Whoever reads the file, in a serial or an MPI build, on any rank of any number of ranks, with any ghost width and any cell
type that is accepted, obtains its part of the field `F`. -/
def Denotes (fmt : Format T D) (m : Meta D) (F : (Nat → Int) → T) (file : List Byte) : Prop :=
  ∀ (bd : Build) (mine : List Byte), checkType mine fmt.name = .ok () → ∀ (ghosts : Int), 0 ≤ ghosts → ∀ (np : Nat) (r : Int),
    IsRank np r → ∃ o, input fmt.comp fmt.cell fmt.fresh fmt.dec fmt.dx0 bd mine fmt.d ghosts np r file = .ok o ∧
      Sees fmt m F bd ghosts np r o

/-! ## Writing a file that denotes -/

/-- What a header written from these numbers says. -/
def Meta.of (dec : Decimal D) (d : Nat) (fields : Int) (g0 g1 : Nat → Int) (dx : Nat → D) (B0 B1 : Nat → BC) : Meta D where
  fields := fields
  limits := (List.range d).map fun j => (g0 j, g1 j)
  dx := (List.range d).map fun j => dec.round6 (dx j)
  faces := (List.range d).map fun j => (B0 j, B1 j)

theorem Meta.of_self {fmt : Format T D} {m : Meta D} (h : m.Good fmt) :
    Meta.of fmt.dec fmt.d m.fields m.g0 m.g1 (m.spacing fmt.dx0) m.B0 m.B1 = m := by
  have key : ∀ {α β : Type} (l : List α) (a : α) (f : α → α) (_ : l.length = fmt.d) (_ : ∀ v ∈ l, f v = v),
      (List.range fmt.d).map (fun j => f (l.getD j a)) = l := by
    intro α _ l a f hl hf
    apply List.ext_getElem
    · simp [hl]
    · intro i h1 h2
      rw [List.getElem_map, List.getElem_range, List.getD_eq_getElem?_getD, List.getElem?_eq_getElem h2, Option.getD_some]
      exact hf _ (List.getElem_mem h2)
  cases m with
  | mk fields limits dx faces =>
    have e1 := key (β := Unit) limits (0, 0) id h.limits fun _ _ => rfl
    have e2 := key (β := Unit) dx fmt.dx0 fmt.dec.round6 h.dx h.stable
    have e3 := key (β := Unit) faces (BC.periodic, BC.periodic) id h.faces fun _ _ => rfl
    simp only [Meta.of, Meta.mk.injEq, true_and]
    exact ⟨e1, e2, e3⟩

/-- The strong form of `FileIO.output_input`: the file written by any run denotes the field it holds. -/
theorem output_denotes (fmt : Format T D) (hc : RoundTrips fmt.cell) (hz : Lawful fmt.comp) (hd : 0 < fmt.d) (hdi : IsInt fmt.d)
    (hnm : newline ∉ fmt.name) {fields : Int} (hf : IsInt fields)
    {g0 g1 : Nat → Int} (hg : ∀ j, j < fmt.d → g0 j ≤ g1 j) (hint : ∀ j, j < fmt.d → IsInt (g0 j) ∧ IsInt (g1 j)) (dx : Nat → D)
    {B0 B1 : Nat → BC} {F : (Nat → Int) → T} {ws : List (Reader T)} (hrun : Run fmt.cell fmt.d g0 g1 B0 B1 F ws)
    (hshrink : ∀ w ∈ ws, Shrinks fmt.comp fmt.cell w) :
    ∃ file, outputBytes fmt.comp fmt.cell fmt.dec fmt.name fmt.d fields g0 g1 dx ws = .ok file ∧
      Denotes fmt (Meta.of fmt.dec fmt.d fields g0 g1 dx B0 B1) F file := by
  obtain ⟨comp, c, fresh, dec, dx0, nm, d⟩ := fmt
  dsimp only at *
  let m := Meta.of dec d fields g0 g1 dx B0 B1
  have hl : ∀ j, j < d → m.g0 j = g0 j ∧ m.g1 j = g1 j := by
    intro j hj; simp only [m, Meta.g0, Meta.g1, Meta.of]; rw [getD_range hj]; exact ⟨rfl, rfl⟩
  have hb : ∀ j, j < d → m.B0 j = B0 j ∧ m.B1 j = B1 j := by
    intro j hj; simp [m, Meta.B0, Meta.B1, Meta.of, List.getD_eq_getElem?_getD, hj]
  have hws : ∀ w ∈ ws, Writable c d w ∧ Shrinks comp c w := by
    intro w hw
    have hp := hrun.part w hw
    refine ⟨⟨hp.dim, ?_, hd, hp.ghosts, hrun.valid w hw, hrun.small w hw⟩, hshrink w hw⟩
    intro j hj
    have hl := hp.inside j hj
    have hi := hint j hj
    exact ⟨⟨le_trans hi.1.1 hl.1.1, lt_of_le_of_lt hl.1.2 hi.2.2⟩, ⟨le_trans hi.1.1 hl.2.1, lt_of_le_of_lt hl.2.2 hi.2.2⟩⟩
  obtain ⟨b, e1⟩ : ∃ b, dataSection comp c ws = .ok b := by
    obtain ⟨b, _, e1, _⟩ := restart hc hz (fresh fields) hd hint hrun hshrink
      (r := ⟨serialShape d g0 g1 (fun _ => .periodic) fun _ => .periodic, fun _ => fresh fields⟩)
      (serialShape_part hg _ _) []
    exact ⟨b, e1⟩
  refine ⟨header dec nm d fields g0 g1 dx ++ b, by simp only [outputBytes, e1, Outcome.ok_bind], ?_⟩
  intro bd mine hacc ghosts hgh np rank hr
  have hnp : 0 < np := by have := hr.1; have := hr.2; omega
  have hpart : PartOf d m.g0 m.g1 (fun _ => .periodic) (fun _ => .periodic) (setupShape bd d m.g0 m.g1 ghosts np rank) :=
    setupShape_part hnp hd (fun j hj => by rw [(hl j hj).1, (hl j hj).2]; exact hg j hj) hgh hr.1 hr.2
  obtain ⟨b', r', e1', e2, e3, e4, e5, e6⟩ := restart hc hz (fresh fields) hd (g0 := m.g0) (g1 := m.g1)
    (fun j hj => by rw [(hl j hj).1, (hl j hj).2]; exact hint j hj) (hrun.congr hl) hshrink
    (r := ⟨setupShape bd d m.g0 m.g1 ghosts np rank, fun _ => fresh fields⟩) hpart []
  obtain rfl : b = b' := Outcome.ok.inj (e1.symm.trans e1')
  rw [List.append_nil] at e2
  refine ⟨⟨fields, m.g0, m.g1, m.spacing dx0, r'⟩, ?_, rfl, rfl, rfl, rfl, e3, fun x hx => e4 x ((e3.node x).mp hx), ?_, ?_⟩
  · have e2' : read comp c (fresh fields) ⟨setupShape bd d
        (fun j => (((List.range d).map fun j => (g0 j, g1 j)).getD j (0, 0)).1)
        (fun j => (((List.range d).map fun j => (g0 j, g1 j)).getD j (0, 0)).2) ghosts np rank, fun _ => fresh fields⟩ b =
      .ok (r', []) := e2
    unfold input
    rw [header_roundTrip dec hnm hacc hdi hf hint dx b]
    simp only [Outcome.ok_bind, e2']
    rfl
  · intro y hy hn
    have hcell : (setupShape bd d m.g0 m.g1 ghosts np rank).IsCell y := by
      obtain ⟨h1, h2, h3, h4⟩ := e3
      intro j hj
      have := hy j (by rw [h1]; exact hj)
      rw [h2, h3, h4] at this
      exact this
    rw [e5 y hcell fun h => hn ((e3.node y).mpr h)]
    rfl
  · rintro ⟨x, hx⟩
    have p := e6 ⟨x, (e3.node x).mp hx⟩
    refine ⟨p.dim, p.ghosts, p.inside, ?_, ?_⟩
    · intro j hj; rw [(hb j hj).1]; exact p.lower j hj
    · intro j hj; rw [(hb j hj).2]; exact p.upper j hj

/-! ## The world of a session -/

theorem pos_first (d : Nat) (p : Nat → Int) (j : Nat) : pos d p 0 j = 0 := by
  have h : ∀ k, digitRest (sp d p) 0 k = 0 := by
    intro k
    induction k with
    | zero => rfl
    | succ k ih => simp only [digitRest, ih]; simp
  unfold pos digit; rw [h j]; simp

theorem pos_last {np d : Nat} {p : Nat → Int} (hp : ProcGrid np d p) {j : Nat} (hj : j < d) :
    pos d p ((np : Int) - 1) j = p j - 1 := by
  have hk : InBox d p fun j => p j - 1 := by
    intro j hj; have := hp.1 j hj; beta_reduce; omega
  have e : encode d (slice d p) (fun j => p j - 1) = (np : Int) - 1 := by
    have hs : ∀ i, i < d → (p i - 1) * slice d p i = (∏ k ∈ Finset.Ico i d, p k) - ∏ k ∈ Finset.Ico (i + 1) d, p k := by
      intro i hi
      rw [Finset.prod_eq_prod_Ico_succ_bot hi]; unfold slice; ring
    unfold encode
    rw [Finset.sum_congr rfl fun i hi => hs i (Finset.mem_range.mp hi),
      Finset.sum_range_sub' (fun i => ∏ k ∈ Finset.Ico i d, p k), ← hp.2]
    simp
  have := digit_encode hk hj
  rw [e] at this
  exact this

theorem getD_past {α : Type} {l : List α} {j : Nat} (h : ¬ j < l.length) (a : α) : l.getD j a = a := by
  rw [List.getD_eq_getElem?_getD, List.getElem?_eq_none (by omega), Option.getD_none]

/-- Box and faces of the object which rank `r` has read are those of rank `r` in the world of the file. -/
theorem shape_eq {fmt : Format T D} {m : Meta D} {np : Nat} {ghosts : Int} {F : (Nat → Int) → T}
    (h : (m.world fmt.d ghosts np).Ok np) {r : Int} (hr : IsRank np r) {o : GridObject T D}
    (ho : Sees fmt m F .mpi ghosts np r o) :
    SameBox ((m.world fmt.d ghosts np).shape r) o.local_.shape ∧
    ∀ j, j < fmt.d → ((m.world fmt.d ghosts np).shape r).b0 j = o.local_.shape.b0 j ∧
      ((m.world fmt.d ghosts np).shape r).b1 j = o.local_.shape.b1 j := by
  obtain ⟨b1, b2, b3, b4⟩ := ho.box
  have hs : SameBox ((m.world fmt.d ghosts np).shape r) o.local_.shape := ⟨b1.symm, b2.symm, b3.symm, b4.symm⟩
  have hwf := shape_wf h hr
  have hp := ho.faces ⟨((m.world fmt.d ghosts np).shape r).x0, (hs.node _).mp fun j hj => ⟨le_refl _, hwf.side j hj⟩⟩
  refine ⟨hs, fun j hj => ⟨?_, ?_⟩⟩
  · rw [hp.lower j hj, ← hs.2.1]; rfl
  · rw [hp.upper j hj, ← hs.2.2.1]; rfl

theorem worldOf_eq {fmt : Format T D} {m : Meta D} (hm : m.Good fmt) {np : Nat} {ghosts : Int} {F : (Nat → Int) → T}
    (h : (m.world fmt.d ghosts np).Ok np) {first last : GridObject T D} (hf : Sees fmt m F .mpi ghosts np 0 first)
    (hl : Sees fmt m F .mpi ghosts np ((np : Int) - 1) last) : worldOf fmt ghosts np first last = m.world fmt.d ghosts np := by
  have hnp : 0 < np := by
    by_contra hn
    have h1 := h.setup.grid.2
    have h2 : 0 < ∏ j ∈ Finset.range fmt.d, (m.world fmt.d ghosts np).p j :=
      Finset.prod_pos fun j hj => h.setup.grid.1 j (Finset.mem_range.mp hj)
    have h3 : ∏ j ∈ Finset.range fmt.d, (m.world fmt.d ghosts np).p j = (np : Int) := h1
    omega
  have hr0 : IsRank np 0 := ⟨le_refl _, by omega⟩
  have hr1 : IsRank np ((np : Int) - 1) := ⟨by omega, by omega⟩
  have e0 : (fun j => if j < fmt.d then first.local_.shape.b0 j else .periodic) = m.B0 := by
    funext j
    by_cases hj : j < fmt.d
    · rw [if_pos hj, ← ((shape_eq h hr0 hf).2 j hj).1]
      have hx : ((m.world fmt.d ghosts np).shape 0).x0 j = m.g0 j := by
        have := lim_eq h.setup.grid h.setup.box hr0.1 hr0.2 hj
        rw [pos_first, cut_zero (h.setup.grid.1 j hj)] at this
        have e := congrArg Prod.fst this
        exact e
      exact if_neg (not_not_intro hx)
    · rw [if_neg hj]; unfold Meta.B0; rw [getD_past (by rw [hm.faces]; exact hj)]
  have e1 : (fun j => if j < fmt.d then last.local_.shape.b1 j else .periodic) = m.B1 := by
    funext j
    by_cases hj : j < fmt.d
    · rw [if_pos hj, ← ((shape_eq h hr1 hl).2 j hj).2]
      have hx : ((m.world fmt.d ghosts np).shape ((np : Int) - 1)).x1 j = m.g1 j := by
        have := lim_eq h.setup.grid h.setup.box hr1.1 hr1.2 hj
        rw [pos_last h.setup.grid hj, sub_add_cancel, cut_last (h.setup.grid.1 j hj)] at this
        have e := congrArg Prod.snd this
        exact e
      exact if_neg (not_not_intro hx)
    · rw [if_neg hj]; unfold Meta.B1; rw [getD_past (by rw [hm.faces]; exact hj)]
  unfold worldOf Meta.world
  rw [hf.g0, hf.g1, e0, e1]

theorem serialWorld_eq {fmt : Format T D} {m : Meta D} (hm : m.Good fmt) {ghosts : Int} {F : (Nat → Int) → T}
    (hne : ∀ j, j < fmt.d → m.g0 j < m.g1 j) {o : GridObject T D} (ho : Sees fmt m F .serial ghosts 1 0 o) :
    (worldOf fmt ghosts 1 o o).serial = m.serial fmt.d := by
  obtain ⟨b1, b2, b3, b4⟩ := ho.box
  have c2 : o.local_.shape.x0 = m.g0 := b2
  have c3 : o.local_.shape.x1 = m.g1 := b3
  have hp := ho.faces ⟨m.g0, by
    intro j hj
    rw [c2, c3]
    exact ⟨le_refl _, hne j (by rw [b1] at hj; exact hj)⟩⟩
  have e0 : (fun j => if j < fmt.d then o.local_.shape.b0 j else .periodic) = m.B0 := by
    funext j
    by_cases hj : j < fmt.d
    · rw [if_pos hj, hp.lower j hj, if_neg (not_not_intro (by rw [c2]))]
    · rw [if_neg hj]; unfold Meta.B0; rw [getD_past (by rw [hm.faces]; exact hj)]
  have e1 : (fun j => if j < fmt.d then o.local_.shape.b1 j else .periodic) = m.B1 := by
    funext j
    by_cases hj : j < fmt.d
    · rw [if_pos hj, hp.upper j hj, if_neg (not_not_intro (by rw [c3]))]
    · rw [if_neg hj]; unfold Meta.B1; rw [getD_past (by rw [hm.faces]; exact hj)]
  unfold worldOf World.serial Meta.serial
  dsimp only
  rw [ho.g0, ho.g1, e0, e1]

theorem gather_eq {α : Type} {f : Nat → Outcome α} {g : Nat → α} {n : Nat} (h : ∀ k, k < n → f k = .ok (g k)) :
    gather f n = .ok ((List.range n).map g) := by
  induction n with
  | zero => rfl
  | succ n ih =>
    simp only [gather, ih fun k hk => h k (by omega), h n (by omega), Outcome.ok_bind, List.range_succ, List.map_append,
      List.map_cons, List.map_nil]

/-! ## One session -/

/-- The assumptions about the cell type, zlib and the type name; `P` is what is known about every cell value. -/
structure Format.Good (fmt : Format T D) (P : T → Prop) : Prop where
  cell : RoundTrips fmt.cell
  zlib : Lawful fmt.comp
  name : newline ∉ fmt.name
  accepts : checkType fmt.name fmt.name = .ok ()
  valid : ∀ v, P v → fmt.cell.Valid v

/-- The grid can be written whatever it holds: byte counts stay within `unsigned long`, and compression does not happen to give a
different block of the same length (C41). -/
structure Fits (fmt : Format T D) (P : T → Prop) (g : Shape) : Prop where
  small : ∀ data : Int → T, (∀ o, 0 ≤ o → o < g.cells → P (data o)) → ∀ n, bufferSize fmt.cell g 1 g.x0 g.x1 data = .ok n →
    n + n / 8 + 12 < 2 ^ 64
  shrinks : ∀ data : Int → T, (∀ o, 0 ≤ o → o < g.cells → P (data o)) → Shrinks fmt.comp fmt.cell ⟨g, data⟩

/-- A session that can continue the run: enough nodes per rank for its ghost width, an `update` that keeps the discipline of C50,
and blocks that MPI can write. In the serial program the last two are asked for on one rank. -/
structure Sound (fmt : Format T D) (m : Meta D) (P : Nat → T → Prop) (s : Session T D) : Prop where
  ok : (m.world fmt.d s.ghosts (s.ranks.getD 1)).Ok (s.ranks.getD 1)
  count : s.ranks.getD 1 < 2 ^ 31
  disciplined : ∃ K, K.f 0 ∧ Disciplined fmt.d s.ghosts P oldKnown (s.prog (m.spacing fmt.dx0)) K
  junk : ∀ r k o, P k (s.junk r k o)
  buffers : ∀ k, RoundTrips (s.cellOf fmt k)
  valid : ∀ k v, P k v → (s.cellOf fmt k).Valid v
  serialFits : s.ranks = none → Fits fmt (P 0) (m.serial fmt.d)
  fits : ∀ np, s.ranks = some np → ∀ r, IsRank np r → Fits fmt (P 0) ((m.world fmt.d s.ghosts np).shape r) ∧
    ∀ data b, (∀ o, 0 ≤ o → o < ((m.world fmt.d s.ghosts np).shape r).cells → P 0 (data o)) →
      writeBuffer fmt.comp fmt.cell ((m.world fmt.d s.ghosts np).shape r) data = .ok b → b.length < 2 ^ 31 - 1

/-- The serial arrays `σ` hold the field `F`. -/
structure Holds (m : Meta D) (d : Nat) (P : Nat → T → Prop) (F : (Nat → Int) → T) (σ : Grids T) : Prop where
  value : ∀ x, (m.serial d).IsNode x → cellAt (m.serial d) (σ 0) x = F x
  all : ∀ k o, 0 ≤ o → o < (m.serial d).cells → P k (σ k o)

/-- What was read is valid, on every cell of the rank. -/
theorem read_all {fmt : Format T D} {m : Meta D} {P : T → Prop} {F : (Nat → Int) → T} {bd : Build} {ghosts : Int} {np : Nat} {r : Int}
    {o : GridObject T D} (ho : Sees fmt m F bd ghosts np r o) (hwf : o.local_.shape.Wf)
    (hF : ∀ x, o.local_.shape.IsNode x → P (F x)) (hfresh : P (fmt.fresh m.fields)) {n : Int} (h0 : 0 ≤ n)
    (h1 : n < o.local_.shape.cells) : P (o.local_.data n) := by
  obtain ⟨x, hx, rfl⟩ := Shape.rawOffset_surj hwf h0 h1
  by_cases hn : o.local_.shape.IsNode x
  · have := ho.value x hn
    unfold cellAt at this
    rw [this]; exact hF x hn
  · have := ho.ghost x hx hn
    unfold cellAt at this
    rw [this]; exact hfresh

theorem sameBox_cells {g h : Shape} (e : SameBox g h) : g.cells = h.cells := by
  cases g; cases h
  obtain ⟨h1, h2, h3, h4⟩ := e
  simp only at h1 h2 h3 h4
  subst h1 h2 h3 h4
  rfl

theorem sameBox_wf {g h : Shape} (e : SameBox g h) (hg : g.Wf) : h.Wf := by
  obtain ⟨h1, h2, h3, h4⟩ := e
  obtain ⟨a, b, c⟩ := hg
  exact ⟨by rw [← h1]; exact a, fun j hj => by rw [← h2, ← h3]; exact b j (by rw [h1]; exact hj), by rw [← h4]; exact c⟩

theorem ranks_pos {m : Meta D} {d : Nat} {ghosts : Int} {np : Nat} (hok : (m.world d ghosts np).Ok np) : 0 < np := by
  by_contra hn
  have h3 : ∏ j ∈ Finset.range d, (m.world d ghosts np).p j = (np : Int) := hok.setup.grid.2
  have h2 : 0 < ∏ j ∈ Finset.range d, (m.world d ghosts np).p j :=
    Finset.prod_pos fun j hj => hok.setup.grid.1 j (Finset.mem_range.mp hj)
  omega

/-- The state of the ranks after reading agrees with every serial state that holds the field. -/
theorem start {fmt : Format T D} {m : Meta D} {P : Nat → T → Prop} (hfmt : fmt.Good (P 0))
    (hfresh : P 0 (fmt.fresh m.fields)) {F : (Nat → Int) → T} {file : List Byte} (hfile : Denotes fmt m F file) {σ : Grids T}
    (hσ : Holds m fmt.d P F σ) {ghosts : Int} {np : Nat} (hok : (m.world fmt.d ghosts np).Ok np) {junk : Int → Grids T}
    (hjunk : ∀ r k o, P k (junk r k o)) :
    ∃ O : Int → GridObject T D,
      (∀ r, IsRank np r → openGrid fmt .mpi ghosts np file r = .ok (O r) ∧ Sees fmt m F .mpi ghosts np r (O r)) ∧
      ∀ τ, Holds m fmt.d P F τ →
        Agree (m.world fmt.d ghosts np) np ⟨fun k => k = 0, fun _ => False⟩ τ
          (fun r => Function.update (junk r) 0 (O r).local_.data) ∧
        AllCells (m.world fmt.d ghosts np) np P τ fun r => Function.update (junk r) 0 (O r).local_.data := by
  have hnp0 := ranks_pos hok
  have hopen : ∀ r, ∃ o, IsRank np r → openGrid fmt .mpi ghosts np file r = .ok o ∧ Sees fmt m F .mpi ghosts np r o := by
    intro r
    by_cases hr : IsRank np r
    · obtain ⟨o, h1, h2⟩ := hfile .mpi fmt.name hfmt.accepts ghosts hok.setup.ghosts np r hr
      exact ⟨o, fun _ => ⟨h1, h2⟩⟩
    · obtain ⟨o, _⟩ := hfile .mpi fmt.name hfmt.accepts ghosts hok.setup.ghosts np 0 ⟨le_refl _, by omega⟩
      exact ⟨o, fun h => absurd h hr⟩
  obtain ⟨O, hO⟩ := Classical.axiomOfChoice hopen
  have hFP : ∀ x, (m.serial fmt.d).IsNode x → P 0 (F x) := by
    intro x hx
    rw [← hσ.value x hx]
    have b := Shape.rawOffset_bounds (serial_wf hok) (isCell_of_isNode (le_refl _) hx)
    exact hσ.all 0 _ b.1 b.2
  refine ⟨O, hO, fun τ hτ => ⟨⟨?_, fun _ hk => hk.elim⟩, fun k => ⟨hτ.all k, fun r hr n h0 h1 => ?_⟩⟩⟩
  · rintro k rfl r hr x hx
    have hb := (shape_eq hok hr (hO r hr).2).1
    have hxs : (m.serial fmt.d).IsNode x := isNode_global hok.setup hr hx
    have e : cellAt (m.world fmt.d ghosts np).serial (τ 0) x = F x := hτ.value x hxs
    beta_reduce
    rw [e, hb.cellAt, Function.update_self]
    exact (hO r hr).2.value x ((hb.node x).mp hx)
  · beta_reduce
    by_cases hk : k = 0
    · subst hk
      rw [Function.update_self]
      have hb := (shape_eq hok hr (hO r hr).2).1
      refine read_all (P := P 0) (hO r hr).2 (sameBox_wf hb (shape_wf hok hr)) ?_ hfresh h0 (by rw [← sameBox_cells hb]; exact h1)
      intro x hx
      exact hFP x (isNode_global hok.setup hr ((hb.node x).mpr hx))
    · rw [Function.update_of_ne hk]; exact hjunk r k n

/-- **C72, one session on `np` ranks.** -/
theorem parallel_step {fmt : Format T D} {m : Meta D} {P : Nat → T → Prop} (hfmt : fmt.Good (P 0)) (hm : m.Good fmt)
    (hfresh : P 0 (fmt.fresh m.fields)) {F : (Nat → Int) → T} {file : List Byte} (hfile : Denotes fmt m F file) {σ : Grids T}
    (hσ : Holds m fmt.d P F σ) {s : Session T D} {np : Nat} (hs : Sound fmt m P s) (hnp : s.ranks = some np) :
    ∃ σ' writes, serialRun (m.serial fmt.d) (s.prog (m.spacing fmt.dx0)) σ = .ok σ' ∧
      (∀ k o, 0 ≤ o → o < (m.serial fmt.d).cells → P k (σ' k o)) ∧
      parallelSession fmt s np file = .ok writes ∧
      ∃ out, (∀ W, W.Perm writes → ∀ i, written W i = out[i]?) ∧ Denotes fmt m (cellAt (m.serial fmt.d) (σ' 0)) out := by
  have hok : (m.world fmt.d s.ghosts np).Ok np := by have := hs.ok; rwa [hnp] at this
  have hcount : np < 2 ^ 31 := by have := hs.count; rwa [hnp] at this
  have hnp0 := ranks_pos hok
  obtain ⟨O, hO, hstart⟩ := start hfmt hfresh hfile hσ hok hs.junk
  have hr0 : IsRank np 0 := ⟨le_refl _, by omega⟩
  have hr1 : IsRank np ((np : Int) - 1) := ⟨by omega, by omega⟩
  have hw := worldOf_eq hm hok (hO 0 hr0).2 (hO _ hr1).2
  obtain ⟨K, hK0, hdis⟩ := hs.disciplined
  have hdis' : Disciplined fmt.d s.ghosts P ⟨fun k => k = 0, fun _ => False⟩
      (.ghostswap 0 :: s.prog (m.spacing fmt.dx0)) K :=
    .ghostswap rfl (hdis.mono ⟨fun _ => id, fun _ hk => Or.inr hk⟩)
  obtain ⟨σ', D', f1, f2, f3, f4⟩ := parallel_eq_serial hs.buffers hs.valid hok hdis' (σ := σ)
    (D := fun r => Function.update (s.junk r) 0 (O r).local_.data)
    (S := fun r => (openGrid fmt .mpi s.ghosts np file r).bind fun o => .ok (Function.update (s.junk r) 0 o.local_.data))
    (fun r hr => by beta_reduce; rw [(hO r hr).1]; rfl) (hstart σ hσ).1 (hstart σ hσ).2
  have hrun : Run fmt.cell fmt.d m.g0 m.g1 m.B0 m.B1 (cellAt (m.serial fmt.d) (σ' 0))
      (writers np fmt.d m.g0 m.g1 s.ghosts (choose np fmt.d m.g0 m.g1) m.B0 m.B1 fun r => D' r 0) :=
    writers_run hcount hok.setup.grid hok.setup.box hok.setup.ghosts
      (fun r h0 h1 x hx => f3.same 0 hK0 r ⟨h0, h1⟩ x hx)
      (fun r h0 h1 o ho0 ho1 => hfmt.valid _ ((f4 0).2 r ⟨h0, h1⟩ o ho0 ho1))
      (fun r h0 h1 => (hs.fits np hnp r ⟨h0, h1⟩).1.small _ ((f4 0).2 r ⟨h0, h1⟩))
  have hblock : ∀ n : Nat, n < np → ∃ b, writeBuffer fmt.comp fmt.cell ((m.world fmt.d s.ghosts np).shape n) (D' n 0) = .ok b := by
    intro n hn
    have hw : (⟨(m.world fmt.d s.ghosts np).shape n, D' n 0⟩ : Reader T) ∈
        writers np fmt.d m.g0 m.g1 s.ghosts (choose np fmt.d m.g0 m.g1) m.B0 m.B1 fun r => D' r 0 :=
      mem_writers.mpr ⟨n, ⟨by omega, by omega⟩, rfl⟩
    have hp := hrun.part _ hw
    obtain ⟨_, _, _, _, _, _, e⟩ := writeBuffer_eq hfmt.cell hfmt.zlib (d := fmt.d) (w := ⟨_, D' n 0⟩) ⟨hp.dim, (fun j hj => by
      have hl := hp.inside j hj
      have hi := hm.ints j hj
      exact ⟨⟨le_trans hi.1.1 hl.1.1, lt_of_le_of_lt hl.1.2 hi.2.2⟩, ⟨le_trans hi.1.1 hl.2.1, lt_of_le_of_lt hl.2.2 hi.2.2⟩⟩),
      hm.dim, hp.ghosts, hrun.valid _ hw, hrun.small _ hw⟩
    exact ⟨_, e⟩
  have hblock' : ∀ n : Nat, ∃ b, n < np → writeBuffer fmt.comp fmt.cell ((m.world fmt.d s.ghosts np).shape n) (D' n 0) = .ok b := by
    intro n
    by_cases hn : n < np
    · obtain ⟨b, hb⟩ := hblock n hn; exact ⟨b, fun _ => hb⟩
    · exact ⟨[], fun h => absurd h hn⟩
  obtain ⟨B, hB⟩ := Classical.axiomOfChoice hblock'
  have hforall : List.Forall₂ (fun w b => writeBuffer fmt.comp fmt.cell w.shape w.data = .ok b)
      (writers np fmt.d m.g0 m.g1 s.ghosts (choose np fmt.d m.g0 m.g1) m.B0 m.B1 fun r => D' r 0) ((List.range np).map B) := by
    unfold writers
    rw [List.forall₂_map_left_iff, List.forall₂_map_right_iff, List.forall₂_same]
    intro n hn
    exact hB n (List.mem_range.mp hn)
  obtain ⟨out, writes, o1, o2, o3⟩ := standard_output_bytes (dec := fmt.dec) (nm := fmt.name) (d := fmt.d) (fields := m.fields)
    (g0 := m.g0) (g1 := m.g1) (dx := m.spacing fmt.dx0) hforall (by
      intro b hb
      obtain ⟨n, hn, rfl⟩ := List.mem_map.mp hb
      have hn' := List.mem_range.mp hn
      exact (hs.fits np hnp n ⟨by omega, by omega⟩).2 _ _ ((f4 0).2 n ⟨by omega, by omega⟩) (hB n hn'))
  obtain ⟨out', p1, p2⟩ := output_denotes fmt hfmt.cell hfmt.zlib hm.dim hm.dimInt hfmt.name hm.fields hm.box hm.ints
    (m.spacing fmt.dx0) hrun (by
      intro w hw
      obtain ⟨q, hq, rfl⟩ := mem_writers.mp hw
      exact (hs.fits np hnp q hq).1.shrinks _ ((f4 0).2 q hq))
  obtain rfl : out = out' := Outcome.ok.inj (o1.symm.trans p1)
  rw [Meta.of_self hm] at p2
  refine ⟨σ', writes, f1, fun k => (f4 k).1, ?_, out, o3, p2⟩
  unfold parallelSession
  rw [(hO 0 hr0).1, Outcome.ok_bind, (hO _ hr1).1, Outcome.ok_bind]
  dsimp only
  rw [hw, (hO 0 hr0).2.dx, (hO 0 hr0).2.fields, (hO 0 hr0).2.g0, (hO 0 hr0).2.g1, gather_eq (g := B), Outcome.ok_bind]
  · exact o2
  · intro n hn
    rw [f2 n ⟨by omega, by omega⟩, Outcome.ok_bind]
    exact hB n hn

/-- **C72, one session of the serial program.** -/
theorem serial_step {fmt : Format T D} {m : Meta D} {P : Nat → T → Prop} (hfmt : fmt.Good (P 0)) (hm : m.Good fmt)
    (hfresh : P 0 (fmt.fresh m.fields)) {F : (Nat → Int) → T} {file : List Byte} (hfile : Denotes fmt m F file) {σ : Grids T}
    (hσ : Holds m fmt.d P F σ) {s : Session T D} (hs : Sound fmt m P s) (hnp : s.ranks = none) :
    ∃ σ' out, serialRun (m.serial fmt.d) (s.prog (m.spacing fmt.dx0)) σ = .ok σ' ∧
      (∀ k o, 0 ≤ o → o < (m.serial fmt.d).cells → P k (σ' k o)) ∧
      serialSession fmt s file = .ok out ∧ Denotes fmt m (cellAt (m.serial fmt.d) (σ' 0)) out := by
  have hok : (m.world fmt.d s.ghosts 1).Ok 1 := by have := hs.ok; rwa [hnp] at this
  obtain ⟨O, hO, hstart⟩ := start hfmt hfresh hfile hσ hok hs.junk
  obtain ⟨K, hK0, hdis⟩ := hs.disciplined
  have hdis' : Disciplined fmt.d s.ghosts P ⟨fun k => k = 0, fun _ => False⟩
      (.ghostswap 0 :: s.prog (m.spacing fmt.dx0)) K :=
    .ghostswap rfl (hdis.mono ⟨fun _ => id, fun _ hk => Or.inr hk⟩)
  have hr0 : IsRank 1 0 := ⟨le_refl _, by decide⟩
  have hne : ∀ j, j < fmt.d → m.g0 j < m.g1 j := fun j hj => (serial_wf hok).side j hj
  obtain ⟨o, ho1, ho2⟩ := hfile .serial fmt.name hfmt.accepts s.ghosts hok.setup.ghosts 1 0 hr0
  have hw := serialWorld_eq hm hne ho2
  have hb : SameBox (m.serial fmt.d) o.local_.shape := by
    obtain ⟨b1, b2, b3, b4⟩ := ho2.box
    exact ⟨b1.symm, b2.symm, b3.symm, b4.symm⟩
  have hFP : ∀ x, (m.serial fmt.d).IsNode x → P 0 (F x) := by
    intro x hx
    rw [← hσ.value x hx]
    have b := Shape.rawOffset_bounds (serial_wf hok) (isCell_of_isNode (le_refl _) hx)
    exact hσ.all 0 _ b.1 b.2
  have hτ : Holds m fmt.d P F (Function.update (s.junk 0) 0 o.local_.data) := by
    refine ⟨fun x hx => ?_, fun k n h0 h1 => ?_⟩
    · rw [Function.update_self, hb.cellAt]; exact ho2.value x ((hb.node x).mp hx)
    · by_cases hk : k = 0
      · subst hk
        rw [Function.update_self]
        exact read_all (P := P 0) ho2 (sameBox_wf hb (serial_wf hok)) (fun x hx => hFP x ((hb.node x).mpr hx)) hfresh h0
          (by rw [← sameBox_cells hb]; exact h1)
      · rw [Function.update_of_ne hk]; exact hs.junk 0 k n
  have hfin : Finished 1 (fun r => (openGrid fmt .mpi s.ghosts 1 file r).bind fun o =>
      .ok (Function.update (s.junk r) 0 o.local_.data)) fun r => Function.update (s.junk r) 0 (O r).local_.data :=
    fun r hr => by beta_reduce; rw [(hO r hr).1]; rfl
  obtain ⟨σ', D', f1, f2, f3, f4⟩ := parallel_eq_serial hs.buffers hs.valid hok hdis' hfin (hstart σ hσ).1 (hstart σ hσ).2
  obtain ⟨τ', E', k1, k2, k3, k4⟩ := parallel_eq_serial hs.buffers hs.valid hok hdis' hfin (hstart _ hτ).1 (hstart _ hτ).2
  have hval : ∀ x, (m.serial fmt.d).IsNode x → cellAt (m.serial fmt.d) (τ' 0) x = cellAt (m.serial fmt.d) (σ' 0) x := by
    intro x hx
    obtain ⟨r, hr, hxr⟩ := owner hok hx
    have e : D' r = E' r := Outcome.ok.inj ((f2 r hr).symm.trans (k2 r hr))
    have a := f3.same 0 hK0 r hr x hxr
    have b := k3.same 0 hK0 r hr x hxr
    rw [e] at a
    exact b.symm.trans a
  have hrun : Run fmt.cell fmt.d m.g0 m.g1 m.B0 m.B1 (cellAt (m.serial fmt.d) (σ' 0)) [⟨m.serial fmt.d, τ' 0⟩] := by
    have h := serial_run (c := fmt.cell) hm.box m.B0 m.B1 (data := τ' 0) (fun o h0 h1 => hfmt.valid _ ((k4 0).1 o h0 h1))
      ((hs.serialFits hnp).small _ (k4 0).1)
    refine ⟨h.count, h.part, h.cover, ?_, h.valid, h.small⟩
    intro w hw x hx
    obtain rfl := List.mem_singleton.mp hw
    exact hval x hx
  obtain ⟨out, p1, p2⟩ := output_denotes fmt hfmt.cell hfmt.zlib hm.dim hm.dimInt hfmt.name hm.fields hm.box hm.ints
    (m.spacing fmt.dx0) hrun (by
      intro w hw
      obtain rfl := List.mem_singleton.mp hw
      exact (hs.serialFits hnp).shrinks _ (k4 0).1)
  rw [Meta.of_self hm] at p2
  refine ⟨σ', out, f1, fun k => (f4 k).1, ?_, p2⟩
  have k1' : serialRun (m.serial fmt.d) (.ghostswap 0 :: s.prog (m.spacing fmt.dx0))
      (Function.update (s.junk 0) 0 o.local_.data) = .ok τ' := k1
  have ho1' : openGrid fmt .serial s.ghosts 1 file 0 = .ok o := ho1
  unfold serialSession
  rw [ho1', Outcome.ok_bind]
  dsimp only
  rw [hw, ho2.dx, k1', Outcome.ok_bind, ho2.fields, ho2.g0, ho2.g1]
  exact p1

/-- **C72.** One session, whichever program and however many ranks: it cannot fail, and every file it may leave denotes the field
which the statements of `update` compute serially in memory. -/
theorem session_step {fmt : Format T D} {m : Meta D} {P : Nat → T → Prop} (hfmt : fmt.Good (P 0)) (hm : m.Good fmt)
    (hfresh : P 0 (fmt.fresh m.fields)) {F : (Nat → Int) → T} {file : List Byte} (hfile : Denotes fmt m F file) {σ : Grids T}
    (hσ : Holds m fmt.d P F σ) {s : Session T D} (hs : Sound fmt m P s) :
    ∃ σ', serialRun (m.serial fmt.d) (s.prog (m.spacing fmt.dx0)) σ = .ok σ' ∧
      (∀ k o, 0 ≤ o → o < (m.serial fmt.d).cells → P k (σ' k o)) ∧ (∃ file', Produces fmt s file file') ∧
      ∀ file', Produces fmt s file file' → Denotes fmt m (cellAt (m.serial fmt.d) (σ' 0)) file' := by
  cases hnp : s.ranks with
  | none =>
    obtain ⟨σ', out, h1, h2, h3, h4⟩ := serial_step hfmt hm hfresh hfile hσ hs hnp
    refine ⟨σ', h1, h2, ⟨out, by unfold Produces; rw [hnp]; exact h3⟩, ?_⟩
    intro file' hp
    unfold Produces at hp
    rw [hnp] at hp
    obtain rfl : out = file' := Outcome.ok.inj (h3.symm.trans hp)
    exact h4
  | some np =>
    obtain ⟨σ', writes, h1, h2, h3, out, h4, h5⟩ := parallel_step hfmt hm hfresh hfile hσ hs hnp
    refine ⟨σ', h1, h2, ⟨out, by unfold Produces; rw [hnp]; exact ⟨writes, writes, h3, List.Perm.refl _, h4 _ (List.Perm.refl _)⟩⟩, ?_⟩
    intro file' hp
    unfold Produces at hp
    rw [hnp] at hp
    obtain ⟨ws, W, e1, e2, e3⟩ := hp
    obtain rfl : writes = ws := Outcome.ok.inj (h3.symm.trans e1)
    obtain rfl : out = file' := List.ext_getElem? fun i => ((h4 W e2 i).symm.trans (e3 i))
    exact h5

/-! ## Any number of sessions -/

theorem Denotes.congr {fmt : Format T D} {m : Meta D} {F G : (Nat → Int) → T} {file : List Byte} (h : Denotes fmt m F file)
    (e : ∀ x, (m.serial fmt.d).IsNode x → F x = G x) : Denotes fmt m G file := by
  intro bd mine hacc ghosts hgh np r hr
  obtain ⟨o, h1, h2⟩ := h bd mine hacc ghosts hgh np r hr
  refine ⟨o, h1, h2.fields, h2.g0, h2.g1, h2.dx, h2.box, fun x hx => ?_, h2.ghost, h2.faces⟩
  rw [h2.value x hx]
  apply e
  have hp := h2.faces ⟨x, hx⟩
  intro j hj
  have a := hx j (by rw [hp.dim]; exact hj)
  have b := hp.inside j hj
  exact ⟨le_trans b.1.1 a.1, lt_of_lt_of_le a.2 b.2.2⟩

theorem serialRun_append {g : Shape} {p q : List (Stmt T)} {σ σ' : Grids T} (h : serialRun g p σ = .ok σ') :
    serialRun g (p ++ q) σ = serialRun g q σ' := by
  unfold serialRun at h ⊢
  rw [List.foldlM_append, h]
  rfl

/-- **C72.** A run cut into any number of sessions, each by the serial program or on any number of ranks of its own, with its own
ghost width, every parallel file written in any order: no session can fail, and the last file, read anywhere, gives exactly the
field that one uninterrupted serial run of all the updates computes. -/
theorem chain_eq_serial {fmt : Format T D} {m : Meta D} {P : Nat → T → Prop} (hfmt : fmt.Good (P 0)) (hm : m.Good fmt)
    (hfresh : P 0 (fmt.fresh m.fields)) {ss : List (Session T D)} (hs : ∀ s ∈ ss, Sound fmt m P s) {F : (Nat → Int) → T}
    {file : List Byte} (hfile : Denotes fmt m F file) {σ : Grids T} (hσ : Holds m fmt.d P F σ) :
    ∃ σ', serialRun (m.serial fmt.d) (ss.flatMap fun s => s.prog (m.spacing fmt.dx0)) σ = .ok σ' ∧
      (∃ last, Chain fmt ss file last) ∧
      ∀ last, Chain fmt ss file last → Denotes fmt m (cellAt (m.serial fmt.d) (σ' 0)) last := by
  induction ss generalizing F file σ with
  | nil =>
    refine ⟨σ, rfl, ⟨file, .nil file⟩, ?_⟩
    intro last hl
    cases hl
    exact hfile.congr fun x hx => (hσ.value x hx).symm
  | cons s ss ih =>
    obtain ⟨σ1, h1, h2, ⟨f1, h3⟩, h4⟩ := session_step hfmt hm hfresh hfile hσ (hs s (by simp))
    have key := fun f hf => ih (fun s hs' => hs s (by simp [hs'])) (h4 f hf) (σ := σ1) ⟨fun _ _ => rfl, h2⟩
    obtain ⟨σ', k1, ⟨last, k2⟩, _⟩ := key f1 h3
    refine ⟨σ', ?_, ⟨last, .cons h3 k2⟩, ?_⟩
    · rw [List.flatMap_cons, serialRun_append h1]; exact k1
    · intro last hl
      cases hl with
      | cons head tail =>
        obtain ⟨σ'', k1', _, k3⟩ := key _ head
        obtain rfl : σ' = σ'' := Outcome.ok.inj (k1.symm.trans k1')
        exact k3 last tail

section Instances
open Stencil

/-! ## Primitive cells without compression -/

/-- Number of nodes. -/
def sites (g : Shape) : Nat := ∏ j ∈ Finset.range g.dim, (g.x1 j - g.x0 j).toNat

theorem points_length (d : Nat) (mn mx : Nat → Int) {k : Nat} (hk : k ≤ d) :
    (points d 1 mn mx k).length = ∏ j ∈ Finset.Ico (d - k) d, (mx j - mn j).toNat := by
  induction k with
  | zero => simp [points]
  | succ k ih =>
    rw [Finset.prod_eq_prod_Ico_succ_bot (by omega), show d - (k + 1) + 1 = d - k by omega, ← ih (by omega)]
    simp only [points, List.length_flatMap, List.length_map, List.map_const', List.sum_replicate, smul_eq_mul]
    congr 1
    simp [irange]

theorem prim_size (c : Codec T) {g : Shape} (hg : g.Wf) (data : Int → T) :
    bufferSize (primCell c) g 1 g.x0 g.x1 data = .ok (sites g * c.width) := by
  have hin : AllIn g (visited g 1 g.x0 g.x1 g.dim 0) := by
    rw [visited_full]
    intro o ho
    obtain ⟨x, hx, rfl⟩ := List.mem_map.mp ho
    refine Shape.rawOffset_bounds hg fun j hj => ?_
    have := points_region (by decide) hx j hj
    have := hg.ghosts
    omega
  unfold bufferSize
  rw [regionSize_eq _ le_rfl hin, visited_full]
  simp only [primCell, List.map_const', List.length_map, List.sum_replicate, smul_eq_mul]
  rw [points_length _ _ _ le_rfl, Nat.sub_self]
  unfold sites
  rw [Finset.range_eq_Ico]

theorem blockHeader_length (g : Shape) : (blockHeader g).length = 16 * g.dim := by
  unfold blockHeader
  simp only [List.length_append, List.length_flatMap, intBytes_length, List.map_const', List.length_range, List.sum_replicate,
    smul_eq_mul]
  omega

/-- Grids of primitive cells, not compressed, can be written if the bytes of the block fit the `int` of MPI. -/
theorem raw_fits {fmt : Format T D} (hcomp : fmt.comp = none) {c : Codec T} (hcell : fmt.cell = primCell c) (P : T → Prop) {g : Shape}
    (hg : g.Wf) (hsize : sites g * c.width + 16 * g.dim + 16 < 2 ^ 31 - 1) :
    Fits fmt P g ∧ ∀ data b, (∀ o, 0 ≤ o → o < g.cells → P (data o)) → writeBuffer fmt.comp fmt.cell g data = .ok b →
      b.length < 2 ^ 31 - 1 := by
  refine ⟨⟨fun data _ n hn => ?_, fun data _ z raw hz => ?_⟩, fun data b _ hb => ?_⟩
  · rw [hcell, prim_size c hg] at hn
    obtain rfl := Outcome.ok.inj hn
    omega
  · rw [hcomp] at hz; cases hz
  · obtain ⟨raw, h1, h2⟩ := region_pack (primCell_roundTrips c) hg (by decide) (nodes_fit hg) (data := data) fun _ _ _ => trivial
    rw [prim_size c hg] at h2
    have e := Outcome.ok.inj h2
    rw [hcomp, hcell] at hb
    unfold writeBuffer at hb
    rw [prim_size c hg, Outcome.ok_bind, h1, Outcome.ok_bind, if_neg (by omega)] at hb
    obtain rfl := Outcome.ok.inj hb
    simp only [List.length_append, blockHeader_length, ulongBytes]
    simp
    omega

/-- Sessions of primitive cells, not compressed. -/
theorem raw_sound {fmt : Format T D} (hcomp : fmt.comp = none) {c : Codec T} (hcell : fmt.cell = primCell c) {m : Meta D}
    {P : T → Prop} {s : Session T D} (ok : (m.world fmt.d s.ghosts (s.ranks.getD 1)).Ok (s.ranks.getD 1))
    (count : s.ranks.getD 1 < 2 ^ 31)
    (disciplined : ∃ K, K.f 0 ∧ Disciplined fmt.d s.ghosts (fun _ => P) oldKnown (s.prog (m.spacing fmt.dx0)) K)
    (junk : ∀ r k o, P (s.junk r k o)) (hother : ∀ k, s.other k = none)
    (hsize : sites (m.serial fmt.d) * c.width + 16 * fmt.d + 16 < 2 ^ 31 - 1) :
    Sound fmt m (fun _ => P) s := by
  have hcell' : ∀ k, s.cellOf fmt k = primCell c := fun k => by rw [Session.cellOf, hother]; exact hcell
  refine ⟨ok, count, disciplined, junk, fun k => by rw [hcell']; exact primCell_roundTrips c, fun k v _ => by rw [hcell']; trivial,
    fun _ => (raw_fits hcomp hcell P (serial_wf ok) hsize).1, fun np hnp r hr => ?_⟩
  rw [hnp] at ok
  refine raw_fits hcomp hcell P (shape_wf ok hr) ?_
  have : sites ((m.world fmt.d s.ghosts np).shape r) ≤ sites (m.serial fmt.d) := by
    unfold sites
    refine Finset.prod_le_prod' fun j hj => ?_
    have := rank_room ok hr (Finset.mem_range.mp hj)
    have e0 : (m.serial fmt.d).x0 j = m.g0 j := rfl
    have e1 : (m.serial fmt.d).x1 j = m.g1 j := rfl
    have e2 : (m.world fmt.d s.ghosts (Option.getD (some np) 1)).g0 j = m.g0 j := rfl
    have e3 : (m.world fmt.d s.ghosts (Option.getD (some np) 1)).g1 j = m.g1 j := rfl
    have e4 : Option.getD (some np) 1 = np := rfl
    rw [e4] at this e2 e3
    omega
  have h2 := Nat.mul_le_mul_right c.width this
  have e : ((m.world fmt.d s.ghosts np).shape r).dim = fmt.d := rfl
  rw [e]
  omega

/-! ## Allen-Cahn -/

section AllenCahn
variable [Zero T] [One T] [Add T] [Sub T] [Mul T] [Div T]

/-- One session of the Allen-Cahn example: `ranks`, ghost width, number of steps, contents of the unset grids. -/
structure Part (T : Type) where
  ranks : Option Nat
  ghosts : Int
  steps : Nat
  junk : Int → Grids T

def Part.session (d : Nat) (conv : D → T) (f : T → T → T) (q : Part T) : Session T D where
  ranks := q.ranks
  ghosts := q.ghosts
  prog := fun dx => allenCahnUpdate d (fun j => conv (dx j)) f q.steps
  junk := q.junk

theorem serialRun_parts (g : Shape) (d : Nat) (conv : D → T) (dx : Nat → D) (f : T → T → T) (ps : List (Part T)) (σ : Grids T) :
    serialRun g ((ps.map (Part.session d conv f)).flatMap fun s => s.prog dx) σ =
      serialRun g (repeatProg (allenCahn d (fun j => conv (dx j)) f) (ps.map Part.steps).sum) σ := by
  induction ps generalizing σ with
  | nil => rfl
  | cons q ps ih =>
    have e : repeatProg (allenCahn d (fun j => conv (dx j)) f) ((q :: ps).map Part.steps).sum =
        repeatProg (allenCahn d (fun j => conv (dx j)) f) q.steps ++
          repeatProg (allenCahn d (fun j => conv (dx j)) f) (ps.map Part.steps).sum := by
      simp only [repeatProg, List.map_cons, List.sum_cons, List.replicate_add, List.flatten_append]
    rw [e]
    have e2 : ((q :: ps).map (Part.session d conv f)).flatMap (fun s => s.prog dx) =
        .ghostswap 0 :: (repeatProg (allenCahn d (fun j => conv (dx j)) f) q.steps ++
          (ps.map (Part.session d conv f)).flatMap fun s => s.prog dx) := rfl
    rw [e2]
    have e3 : ∀ p : List (Stmt T), serialRun g (.ghostswap 0 :: p) σ = serialRun g p σ := fun _ => rfl
    rw [e3]
    cases h : serialRun g (repeatProg (allenCahn d (fun j => conv (dx j)) f) q.steps) σ with
    | ok σ1 => rw [serialRun_append h, serialRun_append h, ih]
    | ub => unfold serialRun at h ⊢; rw [List.foldlM_append, List.foldlM_append, h]; rfl
    | abort k => unfold serialRun at h ⊢; rw [List.foldlM_append, List.foldlM_append, h]; rfl

/-- **C72, Allen-Cahn.** `k1` steps on `n1` ranks, restarted for `k2` steps on `n2` ranks and so on, give node for node the field
that the serial program computes in `k1 + k2 + …` steps. -/
theorem allenCahn_restarts {fmt : Format T D} (hcomp : fmt.comp = none) {c : Codec T} (hcell : fmt.cell = primCell c)
    (hname : newline ∉ fmt.name) (hacc : checkType fmt.name fmt.name = .ok ()) {m : Meta D} (hm : m.Good fmt)
    (hsize : sites (m.serial fmt.d) * c.width + 16 * fmt.d + 16 < 2 ^ 31 - 1) (conv : D → T) (f : T → T → T) {ps : List (Part T)}
    (hps : ∀ q ∈ ps, (m.world fmt.d q.ghosts (q.ranks.getD 1)).Ok (q.ranks.getD 1) ∧ q.ranks.getD 1 < 2 ^ 31 ∧ 1 ≤ q.ghosts)
    {F : (Nat → Int) → T} {file : List Byte} (hfile : Denotes fmt m F file) {σ : Grids T}
    (hσ : ∀ x, (m.serial fmt.d).IsNode x → cellAt (m.serial fmt.d) (σ 0) x = F x) :
    ∃ σ', serialRun (m.serial fmt.d) (repeatProg (allenCahn fmt.d (fun j => conv (m.spacing fmt.dx0 j)) f) (ps.map Part.steps).sum) σ = .ok σ' ∧
      (∃ last, Chain fmt (ps.map (Part.session fmt.d conv f)) file last) ∧
      ∀ last, Chain fmt (ps.map (Part.session fmt.d conv f)) file last → Denotes fmt m (cellAt (m.serial fmt.d) (σ' 0)) last := by
  have hfmt : fmt.Good (fun _ => True) := ⟨by rw [hcell]; exact primCell_roundTrips c, by rw [hcomp]; rintro z ⟨⟩, hname, hacc,
    fun _ _ => by rw [hcell]; trivial⟩
  obtain ⟨σ', h1, h2, h3⟩ := chain_eq_serial (P := fun _ _ => True) hfmt hm trivial (ss := ps.map (Part.session fmt.d conv f)) (by
    intro s hs
    obtain ⟨q, hq, rfl⟩ := List.mem_map.mp hs
    obtain ⟨a, b, e⟩ := hps q hq
    refine raw_sound hcomp hcell a b ⟨oldKnown, rfl, ?_⟩ (fun _ _ _ => trivial) (fun _ => rfl) hsize
    exact .ghostswap rfl (((allenCahn_disciplined fmt.d e _ f).steps q.steps).mono ⟨fun _ => id, fun _ hk => Or.inl hk⟩))
    hfile (σ := σ) ⟨hσ, fun _ _ _ _ => trivial⟩
  rw [serialRun_parts] at h1
  exact ⟨σ', h1, h2, h3⟩

end AllenCahn

/-! ## Example -/

/-- Twelve nodes on a line, mirror and Neumann ends. -/
def line : Meta { n : Int // -2 ^ 31 ≤ n ∧ n < 2 ^ 31 } := ⟨1, [(0, 12)], [⟨1, by decide⟩], [(.mirror, .neumann)]⟩

def bytes : Format Byte { n : Int // -2 ^ 31 ≤ n ∧ n < 2 ^ 31 } :=
  ⟨none, primCell byteCodec, fun _ => 0, wholeDecimal, ⟨1, by decide⟩, gridName (ascii "char"), 1⟩

theorem line_good : line.Good bytes := by
  refine ⟨by decide, ⟨by decide, by decide⟩, rfl, rfl, rfl, ⟨by decide, by decide⟩, ?_, ?_, fun _ _ => rfl⟩
  · intro j hj; obtain rfl : j = 0 := by change j < 1 at hj; omega
    decide
  · intro j hj; obtain rfl : j = 0 := by change j < 1 at hj; omega
    exact ⟨⟨by decide, by decide⟩, ⟨by decide, by decide⟩⟩

theorem line_ok {np : Nat} {ghosts : Int} (h : np = 1 ∧ ghosts = 1 ∨ np = 3 ∧ ghosts = 2 ∨ np = 2 ∧ ghosts = 1) :
    (line.world 1 ghosts np).Ok np := by
  have hb : ∀ j, j < 1 → line.g0 j ≤ line.g1 j := by
    intro j hj; obtain rfl : j = 0 := by omega
    decide
  have hr : ∀ (P : Int → Nat → Prop), (∀ r ∈ [(0 : Int), 1, 2], r < np → P r 0) → ∀ r : Int, 0 ≤ r → r < np → ∀ j, j < 1 → P r j := by
    intro P hP r h0 h1 j hj
    obtain rfl : j = 0 := by omega
    apply hP r _ h1
    have : r = 0 ∨ r = 1 ∨ r = 2 := by omega
    simpa using this
  refine ⟨⟨choose_procGrid (by omega) (show 0 < 1 by decide) hb, show 0 < 1 by decide, hb, ?_, ?_, ?_⟩, ?_, ?_⟩
  · change 0 ≤ ghosts; omega
  · intro j hj; obtain rfl : j = 0 := by change j < 1 at hj; omega
    rcases h with ⟨rfl, rfl⟩ | ⟨rfl, rfl⟩ | ⟨rfl, rfl⟩ <;> decide +kernel
  · refine hr (fun r j => ghosts ≤ ((line.world 1 ghosts np).toSetup.shape r).x1 j - ((line.world 1 ghosts np).toSetup.shape r).x0 j) ?_
    rcases h with ⟨rfl, rfl⟩ | ⟨rfl, rfl⟩ | ⟨rfl, rfl⟩ <;> decide +kernel
  · intro j hj; obtain rfl : j = 0 := by change j < 1 at hj; omega
    change line.B0 0 ≠ .parallel ∧ line.B1 0 ≠ .parallel
    decide
  · intro j hj _ r hr'
    refine hr (fun r j => ghosts < ((line.world 1 ghosts np).shape r).x1 j - ((line.world 1 ghosts np).shape r).x0 j) ?_ r hr'.1 hr'.2 j hj
    rcases h with ⟨rfl, rfl⟩ | ⟨rfl, rfl⟩ | ⟨rfl, rfl⟩ <;> decide +kernel

/-- A file written by the serial program; five steps on three ranks, two steps serially, seven steps on two ranks: the last file
holds the result of fourteen serial steps. -/
example (data : Int → Byte) (junk : Int → Grids Byte) (conv : { n : Int // -2 ^ 31 ≤ n ∧ n < 2 ^ 31 } → Byte) (f : Byte → Byte → Byte) :
    let ps : List (Part Byte) := [⟨some 3, 2, 5, junk⟩, ⟨none, 1, 2, junk⟩, ⟨some 2, 1, 7, junk⟩]
    ∃ file σ', outputBytes none (primCell byteCodec) wholeDecimal (gridName (ascii "char")) 1 1 line.g0 line.g1
        (line.spacing ⟨1, by decide⟩) [⟨line.serial 1, data⟩] = .ok file ∧
      serialRun (line.serial 1) (repeatProg (allenCahn 1 (fun j => conv (line.spacing ⟨1, by decide⟩ j)) f) 14) (fun _ => data) = .ok σ' ∧
      ∃ last, Chain bytes (ps.map (Part.session 1 conv f)) file last ∧ Denotes bytes line (cellAt (line.serial 1) (σ' 0)) last := by
  intro ps
  have hg := line_good
  have hwf : (line.serial 1).Wf := serial_wf (line_ok (Or.inl ⟨rfl, rfl⟩))
  have hsites : sites (line.serial 1) = 12 := by decide
  obtain ⟨file, e1, e2⟩ := output_denotes bytes (primCell_roundTrips byteCodec) (by rintro z ⟨⟩) hg.dim hg.dimInt (by decide)
    hg.fields hg.box hg.ints (line.spacing bytes.dx0)
    (serial_run (c := primCell byteCodec) hg.box line.B0 line.B1 (data := data) (fun _ _ _ => trivial) (by
      intro n hn
      have := prim_size byteCodec hwf data
      obtain rfl := Outcome.ok.inj (this.symm.trans hn)
      rw [hsites]
      decide))
    (by rintro w _ z raw ⟨⟩)
  rw [Meta.of_self hg] at e2
  obtain ⟨σ', h1, ⟨last, h2⟩, h3⟩ := allenCahn_restarts (fmt := bytes) rfl (c := byteCodec) rfl (by decide) (by decide) hg
    (by change sites (line.serial 1) * 1 + 16 * 1 + 16 < 2 ^ 31 - 1; rw [hsites]; decide) conv f (ps := ps) (by
      intro q hq
      have : q = ⟨some 3, 2, 5, junk⟩ ∨ q = ⟨none, 1, 2, junk⟩ ∨ q = ⟨some 2, 1, 7, junk⟩ := by simpa [ps] using hq
      rcases this with rfl | rfl | rfl
      · exact ⟨line_ok (Or.inr (Or.inl ⟨rfl, rfl⟩)), show 3 < 2 ^ 31 by decide, show (1 : Int) ≤ 2 by decide⟩
      · exact ⟨line_ok (Or.inl ⟨rfl, rfl⟩), show 1 < 2 ^ 31 by decide, show (1 : Int) ≤ 1 by decide⟩
      · exact ⟨line_ok (Or.inr (Or.inr ⟨rfl, rfl⟩)), show 2 < 2 ^ 31 by decide, show (1 : Int) ≤ 1 by decide⟩) e2 (σ := fun _ => data) fun _ _ => rfl
  exact ⟨file, σ', e1, h1, last, h2, h3 last h2⟩

end Instances

end MMSP.Sessions
