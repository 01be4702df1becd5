import Verif.FileIO
import Verif.BufferProps
import Verif.DecompProps
import Mathlib.Tactic.SplitIfs
/-!
# Properties C15, C16: what is written to a file is what is read back
-/

namespace MMSP.FileIO

open MMSP.Decomp

/-! ## Lemmas about reading primitive values -/

theorem fread_append (a rest : List Byte) : fread a.length (a ++ rest) = .ok (a, rest) := by
  unfold fread
  rw [if_pos (by simp), List.take_left, List.drop_left]

theorem fread_append' {n : Nat} {a : List Byte} (h : a.length = n) (rest : List Byte) :
    fread n (a ++ rest) = .ok (a, rest) := by subst h; exact fread_append a rest

/-- Numbers an `int` can hold. -/
def IsInt (n : Int) : Prop := -2 ^ 31 ≤ n ∧ n < 2 ^ 31

theorem freadInt_intBytes {n : Int} (h : IsInt n) (rest : List Byte) :
    freadInt (intBytes n ++ rest) = .ok (n, rest) := by
  unfold freadInt
  rw [fread_append' (intBytes_length n)]
  have := readInt_intBytes h.1 h.2 []
  rw [List.append_nil] at this
  simp only [Outcome.ok_bind, this]

theorem freadULong_ulongBytes {n : Nat} (h : n < 2 ^ 64) (rest : List Byte) :
    freadULong (ulongBytes n ++ rest) = .ok (n, rest) := by
  unfold freadULong ulongBytes
  rw [fread_append' (leBytes_length 8 n)]
  simp only [Outcome.ok_bind]
  rw [ofLe_leBytes (by norm_num at *; exact h)]

theorem ofCode_code (b : BC) : ofCode b.code = some b := by cases b <;> rfl

theorem code_isInt (b : BC) : IsInt b.code := by cases b <;> (constructor <;> decide)

theorem readPairs_append (l : List (Int × Int)) (h : ∀ p ∈ l, IsInt p.1 ∧ IsInt p.2) (rest : List Byte) :
    readPairs l.length ((l.flatMap fun p => intBytes p.1 ++ intBytes p.2) ++ rest) = .ok (l, rest) := by
  induction l with
  | nil => simp [readPairs]
  | cons p l ih =>
    have hp := h p (by simp)
    simp only [List.length_cons, readPairs, List.flatMap_cons, List.append_assoc]
    rw [freadInt_intBytes hp.1]
    simp only [Outcome.ok_bind]
    rw [freadInt_intBytes hp.2]
    simp only [Outcome.ok_bind]
    rw [ih (fun q hq => h q (by simp [hq]))]
    rfl

theorem readPairs_range {d : Nat} {a b : Nat → Int} (h : ∀ j, j < d → IsInt (a j) ∧ IsInt (b j)) (rest : List Byte) :
    readPairs d (((List.range d).flatMap fun j => intBytes (a j) ++ intBytes (b j)) ++ rest) =
      .ok ((List.range d).map fun j => (a j, b j), rest) := by
  have := readPairs_append ((List.range d).map fun j => (a j, b j)) (by
    intro p hp
    obtain ⟨j, hj, rfl⟩ := List.mem_map.mp hp
    exact h j (List.mem_range.mp hj)) rest
  rw [List.length_map, List.length_range, List.flatMap_map] at this
  exact this

theorem getD_range {d j : Nat} (hj : j < d) (a b : Nat → Int) :
    ((List.range d).map fun j => (a j, b j)).getD j (0, 0) = (a j, b j) := by
  simp [List.getD_eq_getElem?_getD, hj]

theorem setBCs_spec (x l code : Nat → Int) (bc : Nat → BC) (d : Nat) (b : Nat → BC)
    (hcode : ∀ j, j < d → code j = (bc j).code) :
    ∃ b', setBCs x l code d b = .ok b' ∧
      ∀ j, b' j = if j < d ∧ x j = l j then bc j else b j := by
  induction d with
  | zero => exact ⟨b, rfl, by simp⟩
  | succ d ih =>
    obtain ⟨b1, h1, h2⟩ := ih fun j hj => hcode j (by omega)
    simp only [setBCs, h1, Outcome.ok_bind]
    by_cases hx : x d = l d
    · rw [if_pos hx]
      simp only [setBC, hcode d (by omega), ofCode_code, Outcome.ok_bind]
      refine ⟨_, rfl, ?_⟩
      intro j
      by_cases hj : j = d
      · subst hj; rw [Function.update_self, if_pos ⟨by omega, hx⟩]
      · rw [Function.update_of_ne hj, h2]
        by_cases hc : j < d ∧ x j = l j
        · rw [if_pos hc, if_pos ⟨by omega, hc.2⟩]
        · rw [if_neg hc, if_neg (fun h => hc ⟨by omega, h.2⟩)]
    · rw [if_neg hx]
      refine ⟨b1, rfl, ?_⟩
      intro j
      rw [h2]
      by_cases hc : j < d ∧ x j = l j
      · rw [if_pos hc, if_pos ⟨by omega, hc.2⟩]
      · rw [if_neg hc, if_neg]
        rintro ⟨h3, h4⟩
        by_cases hj : j = d
        · subst hj; exact hx h4
        · exact hc ⟨by omega, h4⟩

/-! ## Specification -/

/-- The boxes have a common node. -/
def Overlaps (g h : Shape) : Prop := ∃ x, g.IsNode x ∧ h.IsNode x

/-- Some side of the box has no nodes. -/
def Empty (g : Shape) : Prop := ∃ j, j < g.dim ∧ g.x1 j ≤ g.x0 j

/-- A rank that can write a block: a `d`-dimensional grid whose limits are `int`s and whose cells hold values of the C++ type;
the byte counts are `unsigned long`s. The box may be empty (a rank that received no nodes). -/
structure Writable {T : Type} (c : Cell T) (d : Nat) (w : Reader T) : Prop where
  dim : w.shape.dim = d
  ints : ∀ j, j < d → IsInt (w.shape.x0 j) ∧ IsInt (w.shape.x1 j)
  pos : 0 < d
  ghosts : 0 ≤ w.shape.ghosts
  valid : ∀ o, 0 ≤ o → o < w.shape.cells → c.Valid (w.data o)
  small : ∀ n, bufferSize c w.shape 1 w.shape.x0 w.shape.x1 w.data = .ok n → n + n / 8 + 12 < 2 ^ 64

theorem wf_or_empty {g : Shape} (hd : 0 < g.dim) (hg : 0 ≤ g.ghosts) : g.Wf ∨ Empty g := by
  by_cases h : Empty g
  · exact Or.inr h
  · refine Or.inl ⟨hd, fun j hj => ?_, hg⟩
    by_contra hn
    exact h ⟨j, hj, by omega⟩

theorem Writable.shape {T : Type} {c : Cell T} {d : Nat} {w : Reader T} (h : Writable c d w) : w.shape.Wf ∨ Empty w.shape :=
  wf_or_empty (by rw [h.dim]; exact h.pos) h.ghosts

/-- The compressed block does not happen to be as long as the uncompressed one (nothing to ask for in the `RAW` build). -/
def Shrinks {T : Type} (comp : Option Zlib) (c : Cell T) (w : Reader T) : Prop :=
  ∀ z raw, comp = some z → toBuffer c w.shape 1 w.shape.x0 w.shape.x1 w.data = .ok raw →
    (z.compress raw).length = raw.length → z.compress raw = raw

/-- The zlib used, if any, behaves. -/
def Lawful (comp : Option Zlib) : Prop := ∀ z, comp = some z → z.Lawful

/-- The bytes a block occupies on disk. -/
def stored (comp : Option Zlib) (raw : List Byte) : List Byte :=
  match comp with
  | none => raw
  | some z => z.compress raw

/-! ## Writing -/

theorem visited_empty {g : Shape} {mn mx : Nat → Int} (h : ∃ j, j < g.dim ∧ mx j ≤ mn j) :
    visited g 1 mn mx g.dim 0 = [] := by
  rw [visited_full, List.map_eq_nil_iff, List.eq_nil_iff_forall_not_mem]
  intro x hx
  obtain ⟨j, hj, h1⟩ := h
  have := points_region (by decide) hx j hj
  omega

theorem nodes_fit {g : Shape} (hg : g.Wf) : RegionFits g 1 g.x0 g.x1 := by
  intro x hx j hj
  have := hx j hj
  have := hg.ghosts
  omega

theorem pack_nodes {T : Type} {c : Cell T} (hc : RoundTrips c) {d : Nat} {w : Reader T} (hw : Writable c d w) :
    ∃ raw, toBuffer c w.shape 1 w.shape.x0 w.shape.x1 w.data = .ok raw ∧
      bufferSize c w.shape 1 w.shape.x0 w.shape.x1 w.data = .ok raw.length := by
  rcases hw.shape with hg | he
  · exact region_pack hc hg (by decide) (nodes_fit hg) hw.valid
  · have hv := visited_empty he
    have hin : AllIn w.shape (visited w.shape 1 w.shape.x0 w.shape.x1 w.shape.dim 0) := by rw [hv]; intro o ho; simp at ho
    refine ⟨[], ?_, ?_⟩
    · unfold toBuffer; rw [regionTo_eq _ le_rfl hin, hv]; rfl
    · unfold bufferSize; rw [regionSize_eq _ le_rfl hin, hv]; rfl

/-- What `write_buffer` puts in the file. -/
theorem writeBuffer_eq {T : Type} {c : Cell T} (hc : RoundTrips c) {comp : Option Zlib} (hz : Lawful comp) {d : Nat}
    {w : Reader T} (hw : Writable c d w) :
    ∃ raw disk, toBuffer c w.shape 1 w.shape.x0 w.shape.x1 w.data = .ok raw ∧
      disk = stored comp raw ∧
      raw.length < 2 ^ 64 ∧ disk.length < 2 ^ 64 ∧
      writeBuffer comp c w.shape w.data =
        .ok (blockHeader w.shape ++ ulongBytes raw.length ++ ulongBytes disk.length ++ disk) := by
  obtain ⟨raw, h1, h2⟩ := pack_nodes hc hw
  have hs := hw.small _ h2
  unfold writeBuffer
  simp only [h1, h2, Outcome.ok_bind, lt_irrefl, if_false]
  cases comp with
  | none => exact ⟨raw, raw, rfl, rfl, by omega, by omega, rfl⟩
  | some z =>
    have hb := (hz z rfl).bound raw
    refine ⟨raw, z.compress raw, rfl, rfl, by omega, by omega, ?_⟩
    simp only
    rw [if_neg (by omega)]

/-! ## Reading one block -/

theorem overlap_iff {g : Shape} {lmin lmax : Nat → Int} :
    overlap g lmin lmax = true ↔ ∀ j, j < g.dim → overlapMin g lmin j < overlapMax g lmax j := by
  unfold overlap
  simp

theorem overlaps_iff {g h : Shape} (hd : g.dim = h.dim) :
    overlap g h.x0 h.x1 = true ↔ Overlaps g h := by
  rw [overlap_iff]
  unfold Overlaps Shape.IsNode overlapMin overlapMax
  constructor
  · intro H
    refine ⟨fun j => if h.x0 j < g.x0 j then g.x0 j else h.x0 j, ?_, ?_⟩ <;>
    · intro j hj
      have := H j (by omega)
      beta_reduce
      constructor <;> split_ifs at * <;> omega
  · rintro ⟨x, h1, h2⟩ j hj
    have a := h1 j hj
    have b := h2 j (hd ▸ hj)
    split <;> split <;> omega

theorem overlap_congr {g : Shape} {a b a' b' : Nat → Int} (h : ∀ j, j < g.dim → a' j = a j ∧ b' j = b j) :
    overlap g a' b' = overlap g a b := by
  rw [Bool.eq_iff_iff, overlap_iff, overlap_iff]
  unfold overlapMin overlapMax
  constructor <;> intro H j hj
  · have := H j hj; rw [(h j hj).1, (h j hj).2] at this; exact this
  · have := H j hj; rw [(h j hj).1, (h j hj).2]; exact this

/-- Filling the temporary grid from the bytes packed by the writer and copying the overlap transfers exactly the nodes that both
boxes contain. -/
theorem absorb_spec {T : Type} {c : Cell T} (hc : RoundTrips c) (fresh : T) {d : Nat} {w : Reader T} (hw : Writable c d w)
    {g : Shape} (hg : g.Wf) (hgd : g.dim = d) {lmin lmax : Nat → Int}
    (hl : ∀ j, j < d → lmin j = w.shape.x0 j ∧ lmax j = w.shape.x1 j) (ho : Overlaps g w.shape) (data : Int → T)
    {raw : List Byte} (hraw : toBuffer c w.shape 1 w.shape.x0 w.shape.x1 w.data = .ok raw) :
    ∃ data', absorb c fresh g data lmin lmax raw = .ok data' ∧
      (∀ x, g.IsNode x → w.shape.IsNode x → cellAt g data' x = cellAt w.shape w.data x) ∧
      (∀ y, g.IsCell y → ¬ (g.IsNode y ∧ w.shape.IsNode y) → cellAt g data' y = cellAt g data y) := by
  have hwd := hw.dim
  have hwf : w.shape.Wf := by
    rcases hw.shape with h | ⟨j, hj, h⟩
    · exact h
    · obtain ⟨x, _, hx⟩ := ho
      have := hx j hj
      omega
  let G := blockShape g.dim lmin lmax
  have hG : G.Wf := ⟨hg.dim_pos, fun j hj => by
    have h1 := hl j (hgd ▸ hj)
    have h2 := hwf.side j (by rw [hwd, ← hgd]; exact hj)
    show lmin j < lmax j
    rw [h1.1, h1.2]; exact h2, le_refl _⟩
  have hGd : G.dim = d := hgd
  have hfd : RegionFits G 1 (fun j => w.shape.x0 j + (fun _ => 0) j) (fun j => w.shape.x1 j + (fun _ => 0) j) := by
    intro x hx j hj
    have h1 := hx j hj
    have h2 := hl j (hGd ▸ hj)
    show lmin j - 0 ≤ x j ∧ x j < lmax j + 0
    beta_reduce at h1
    omega
  obtain ⟨buf, tmp, e1, e2, e3, e4⟩ := region_roundTrip hc hwf hG (by rw [hwd, hGd]) (by decide) (nodes_fit hwf) hfd
    (dst := fun _ => fresh) hw.valid []
  rw [hraw] at e1
  obtain rfl : raw = buf := by simpa using e1
  rw [List.append_nil] at e2
  rw [fromBuffer_congr (mn' := lmin) (mx' := lmax) (by
    intro j hj
    have h2 := hl j (hGd ▸ hj)
    constructor
    · rw [h2.1]; simp
    · rw [h2.2]; simp)] at e2
  have hGnode : ∀ x, G.IsCell x ↔ w.shape.IsNode x := by
    intro x
    constructor
    · intro h j hj
      have h1 := h j (by rw [hGd, ← hwd]; exact hj)
      have h2 := hl j (hwd ▸ hj)
      have h3 : lmin j - 0 ≤ x j ∧ x j < lmax j + 0 := h1
      omega
    · intro h j hj
      have h1 := h j (by rw [hwd, ← hGd]; exact hj)
      have h2 := hl j (hGd ▸ hj)
      show lmin j - 0 ≤ x j ∧ x j < lmax j + 0
      omega
  have htmp : ∀ x, w.shape.IsNode x → cellAt G tmp x = cellAt w.shape w.data x := by
    intro x hx
    have := e3 x (by intro j hj; have := hx j hj; exact ⟨this.1, this.2, one_dvd _⟩)
    simpa using this
  have hvtmp : ∀ o, 0 ≤ o → o < G.cells → c.Valid (tmp o) := by
    intro o h0 h1
    obtain ⟨x, hx, rfl⟩ := Shape.rawOffset_surj hG h0 h1
    have hn := (hGnode x).mp hx
    have h2 := htmp x hn
    unfold cellAt at h2
    rw [h2]
    have hcell : w.shape.IsCell x := by
      intro j hj
      have := hn j hj
      have := hwf.ghosts
      omega
    have := Shape.rawOffset_bounds hwf hcell
    exact hw.valid _ this.1 this.2
  have hreg : ∀ x, InRegion d 1 (overlapMin g lmin) (overlapMax g lmax) x ↔ g.IsNode x ∧ w.shape.IsNode x := by
    intro x
    unfold InRegion Shape.IsNode overlapMin overlapMax
    constructor
    · intro h
      constructor
      · intro j hj
        have h1 := h j (hgd ▸ hj)
        split_ifs at h1 <;> omega
      · intro j hj
        have h1 := h j (hwd ▸ hj)
        have h2 := hl j (hwd ▸ hj)
        split_ifs at h1 <;> omega
    · rintro ⟨h1, h2⟩ j hj
      have a := h1 j (hgd ▸ hj)
      have b := h2 j (hwd ▸ hj)
      have e := hl j hj
      refine ⟨?_, ?_, one_dvd _⟩ <;> split_ifs <;> omega
  have hf1 : RegionFits G 1 (overlapMin g lmin) (overlapMax g lmax) := by
    intro x hx
    rw [hGd] at hx
    exact (hGnode x).mpr ((hreg x).mp hx).2
  have hz : ∀ f : Nat → Int, (fun j => f j + (fun _ => (0 : Int)) j) = f := by intro f; funext j; simp
  have hf2 : RegionFits g 1 (fun j => overlapMin g lmin j + (fun _ => 0) j) (fun j => overlapMax g lmax j + (fun _ => 0) j) := by
    rw [hz, hz]
    intro x hx j hj
    rw [hgd] at hx
    have := ((hreg x).mp hx).1 j hj
    have := hg.ghosts
    omega
  obtain ⟨buf2, p1, p2⟩ := region_pack hc hG (by decide) hf1 hvtmp
  obtain ⟨buf2', data', q1, q2, q3, q4⟩ := region_roundTrip hc hG hg (by rw [hGd, hgd]) (by decide) hf1 hf2
    (dst := data) hvtmp []
  rw [p1] at q1
  obtain rfl : buf2 = buf2' := by simpa using q1
  rw [hz, hz, List.append_nil] at q2
  refine ⟨data', ?_, ?_, ?_⟩
  · have e2' : fromBuffer c (blockShape g.dim lmin lmax) 1 lmin lmax raw (fun _ => fresh) = .ok (tmp, raw.length) := e2
    have p1' : toBuffer c (blockShape g.dim lmin lmax) 1 (overlapMin g lmin) (overlapMax g lmax) tmp = .ok buf2 := p1
    have p2' : bufferSize c (blockShape g.dim lmin lmax) 1 (overlapMin g lmin) (overlapMax g lmax) tmp =
      .ok buf2.length := p2
    unfold absorb
    simp only [e2', Outcome.ok_bind, p2', p1', lt_irrefl, if_false, q2]
  · intro x hx hx'
    have h1 := q3 x (by rw [hGd]; exact (hreg x).mpr ⟨hx, hx'⟩)
    have h2 := htmp x hx'
    rw [← h2, ← h1]
    simp
  · intro y hy hn
    apply q4 y hy
    rw [hz, hz, hgd, hreg]
    exact hn

theorem unpack_spec {T : Type} {c : Cell T} {comp : Option Zlib} (hz : Lawful comp) {w : Reader T}
    (hs : Shrinks comp c w) {raw : List Byte} (hraw : toBuffer c w.shape 1 w.shape.x0 w.shape.x1 w.data = .ok raw) :
    unpack comp raw.length (stored comp raw) = .ok raw := by
  cases comp with
  | none => exact if_neg (not_not_intro rfl)
  | some z =>
    by_cases h : raw.length ≠ (z.compress raw).length
    · refine (if_pos h).trans ?_
      simp only [stored, (hz z rfl).inverse raw raw.length le_rfl]
    · refine (if_neg h).trans ?_
      have := hs z raw rfl hraw (by omega)
      simp only [stored, this]

/-- What reading a block that `w` wrote does to a reader. -/
structure Absorbed {T : Type} (d : Nat) (w r r' : Reader T) : Prop where
  dim : r'.shape.dim = r.shape.dim
  x0 : r'.shape.x0 = r.shape.x0
  x1 : r'.shape.x1 = r.shape.x1
  ghosts : r'.shape.ghosts = r.shape.ghosts
  /-- shared nodes receive the writer's values -/
  taken : ∀ x, r.shape.IsNode x → w.shape.IsNode x → cellAt r.shape r'.data x = cellAt w.shape w.data x
  /-- every other cell keeps its value -/
  kept : ∀ y, r.shape.IsCell y → ¬ (r.shape.IsNode y ∧ w.shape.IsNode y) →
    cellAt r.shape r'.data y = cellAt r.shape r.data y
  /-- a face shared with an overlapping block takes over the block's boundary condition -/
  lower : ∀ j, j < d → (Overlaps r.shape w.shape → r.shape.x0 j = w.shape.x0 j → r'.shape.b0 j = w.shape.b0 j) ∧
    (¬ (Overlaps r.shape w.shape ∧ r.shape.x0 j = w.shape.x0 j) → r'.shape.b0 j = r.shape.b0 j)
  upper : ∀ j, j < d → (Overlaps r.shape w.shape → r.shape.x1 j = w.shape.x1 j → r'.shape.b1 j = w.shape.b1 j) ∧
    (¬ (Overlaps r.shape w.shape ∧ r.shape.x1 j = w.shape.x1 j) → r'.shape.b1 j = r.shape.b1 j)

/-- C15, one block: reading a block succeeds, consumes exactly that block, and changes exactly what it should. -/
theorem readBlock_spec {T : Type} {c : Cell T} (hc : RoundTrips c) {comp : Option Zlib} (hz : Lawful comp) (fresh : T)
    {d : Nat} {w : Reader T} (hw : Writable c d w) (hs : Shrinks comp c w) {r : Reader T} (hrd : r.shape.dim = d)
    (hgh : 0 ≤ r.shape.ghosts) (rest : List Byte) :
    ∃ b r', writeBuffer comp c w.shape w.data = .ok b ∧
      readBlock comp c fresh r (b ++ rest) = .ok (r', rest) ∧ Absorbed d w r r' := by
  have hwd := hw.dim
  have hr := wf_or_empty (by rw [hrd]; exact hw.pos) hgh
  obtain ⟨raw, disk, hraw, hdisk, hl1, hl2, hb⟩ := writeBuffer_eq hc hz hw
  refine ⟨blockHeader w.shape ++ ulongBytes raw.length ++ ulongBytes disk.length ++ disk, ?_⟩
  have hlim := readPairs_range (d := d) (a := w.shape.x0) (b := w.shape.x1) hw.ints
  have hbc := readPairs_range (d := d) (a := fun j => (w.shape.b0 j).code) (b := fun j => (w.shape.b1 j).code)
    (fun j _ => ⟨code_isInt _, code_isInt _⟩)
  have key : readBlock comp c fresh r
      (blockHeader w.shape ++ ulongBytes raw.length ++ ulongBytes disk.length ++ disk ++ rest) =
      readBlock comp c fresh r (((List.range d).flatMap fun j => intBytes (w.shape.x0 j) ++ intBytes (w.shape.x1 j)) ++
        (((List.range d).flatMap fun j => intBytes (w.shape.b0 j).code ++ intBytes (w.shape.b1 j).code) ++
        (ulongBytes raw.length ++ (ulongBytes disk.length ++ (disk ++ rest))))) := by
    unfold blockHeader
    rw [hwd]
    simp only [List.append_assoc]
  have hll : ∀ j, j < d → (((List.range d).map fun j => (w.shape.x0 j, w.shape.x1 j)).getD j (0, 0)).1 = w.shape.x0 j ∧
      (((List.range d).map fun j => (w.shape.x0 j, w.shape.x1 j)).getD j (0, 0)).2 = w.shape.x1 j := by
    intro j hj; rw [getD_range hj]; exact ⟨rfl, rfl⟩
  have hbb : ∀ j, j < d → (((List.range d).map fun j => ((w.shape.b0 j).code, (w.shape.b1 j).code)).getD j (0, 0)).1 =
        (w.shape.b0 j).code ∧
      (((List.range d).map fun j => ((w.shape.b0 j).code, (w.shape.b1 j).code)).getD j (0, 0)).2 = (w.shape.b1 j).code := by
    intro j hj
    rw [getD_range hj (fun j => (w.shape.b0 j).code) (fun j => (w.shape.b1 j).code)]
    exact ⟨rfl, rfl⟩
  have hov := overlap_congr (g := r.shape) (a := w.shape.x0) (b := w.shape.x1) (fun j hj => hll j (hrd ▸ hj))
  have hov2 := overlaps_iff (g := r.shape) (h := w.shape) (by rw [hrd, hwd])
  by_cases ho : Overlaps r.shape w.shape
  · have hrwf : r.shape.Wf := by
      rcases hr with h | ⟨j, hj, h⟩
      · exact h
      · obtain ⟨x, hx, _⟩ := ho
        have := hx j hj
        omega
    obtain ⟨data', a1, a2, a3⟩ := absorb_spec hc fresh hw hrwf hrd hll ho r.data hraw
    obtain ⟨b0', s1, s2⟩ := setBCs_spec r.shape.x0
      (fun j => (((List.range d).map fun j => (w.shape.x0 j, w.shape.x1 j)).getD j (0, 0)).1)
      (fun j => (((List.range d).map fun j => ((w.shape.b0 j).code, (w.shape.b1 j).code)).getD j (0, 0)).1)
      w.shape.b0 d r.shape.b0 (fun j hj => (hbb j hj).1)
    obtain ⟨b1', t1, t2⟩ := setBCs_spec r.shape.x1
      (fun j => (((List.range d).map fun j => (w.shape.x0 j, w.shape.x1 j)).getD j (0, 0)).2)
      (fun j => (((List.range d).map fun j => ((w.shape.b0 j).code, (w.shape.b1 j).code)).getD j (0, 0)).2)
      w.shape.b1 d r.shape.b1 (fun j hj => (hbb j hj).2)
    refine ⟨⟨⟨r.shape.dim, r.shape.x0, r.shape.x1, b0', b1', r.shape.ghosts⟩, data'⟩, hb, ?_, ?_⟩
    · rw [key]
      unfold readBlock
      have hu := unpack_spec hz hs hraw
      rw [← hdisk] at hu
      rw [hrd, hlim]
      simp only [Outcome.ok_bind, hbc, freadULong_ulongBytes hl1, freadULong_ulongBytes hl2]
      rw [if_pos (by rw [hov]; exact hov2.mpr ho)]
      simp only [fread_append, Outcome.ok_bind, hu, a1, s1, t1]
    · refine ⟨rfl, rfl, rfl, rfl, a2, a3, ?_, ?_⟩
      · intro j hj
        have hj' := (hll j hj).1
        constructor
        · intro _ he
          rw [← hj'] at he
          exact (s2 j).trans (if_pos ⟨hj, he⟩)
        · intro hn
          refine (s2 j).trans (if_neg ?_)
          rintro ⟨_, he⟩
          exact hn ⟨ho, he.trans hj'⟩
      · intro j hj
        have hj' := (hll j hj).2
        constructor
        · intro _ he
          rw [← hj'] at he
          exact (t2 j).trans (if_pos ⟨hj, he⟩)
        · intro hn
          refine (t2 j).trans (if_neg ?_)
          rintro ⟨_, he⟩
          exact hn ⟨ho, he.trans hj'⟩
  · refine ⟨r, hb, ?_, ?_⟩
    · rw [key]
      unfold readBlock
      rw [hrd, hlim]
      simp only [Outcome.ok_bind, hbc, freadULong_ulongBytes hl1, freadULong_ulongBytes hl2]
      rw [if_neg (by rw [hov]; exact fun h => ho (hov2.mp h)), List.drop_left]
    · refine ⟨rfl, rfl, rfl, rfl, ?_, ?_, ?_, ?_⟩
      · intro x h1 h2; exact absurd ⟨x, h1, h2⟩ ho
      · intro y _ _; rfl
      · intro j _; exact ⟨fun h => absurd h ho, fun _ => rfl⟩
      · intro j _; exact ⟨fun h => absurd h ho, fun _ => rfl⟩

/-! ## Reading a whole file -/

/-- Two shapes with the same storage; boundary conditions may differ. -/
def SameBox (g h : Shape) : Prop := g.dim = h.dim ∧ g.x0 = h.x0 ∧ g.x1 = h.x1 ∧ g.ghosts = h.ghosts

theorem SameBox.offset {g h : Shape} (e : SameBox g h) (x : Nat → Int) : g.rawOffset x = h.rawOffset x := by
  cases g; cases h
  obtain ⟨h1, h2, h3, h4⟩ := e
  simp only at h1 h2 h3 h4
  subst h1 h2 h3 h4
  rfl

theorem SameBox.node {g h : Shape} (e : SameBox g h) (x : Nat → Int) : g.IsNode x ↔ h.IsNode x := by
  obtain ⟨h1, h2, h3, _⟩ := e
  unfold Shape.IsNode
  rw [h1, h2, h3]

theorem SameBox.cell {g h : Shape} (e : SameBox g h) (x : Nat → Int) : g.IsCell x ↔ h.IsCell x := by
  obtain ⟨h1, h2, h3, h4⟩ := e
  unfold Shape.IsCell
  rw [h1, h2, h3, h4]

theorem SameBox.cellAt {T : Type} {g h : Shape} (e : SameBox g h) (data : Int → T) (x : Nat → Int) :
    MMSP.cellAt g data x = MMSP.cellAt h data x := by
  unfold MMSP.cellAt; rw [e.offset]

theorem SameBox.overlaps {g h k : Shape} (e : SameBox g h) : Overlaps g k ↔ Overlaps h k := by
  unfold Overlaps
  simp only [e.node]

/-- The reader `r'` is what `r` must become after reading a file written by `ws`. -/
structure ReadFrom {T : Type} (d : Nat) (ws : List (Reader T)) (r r' : Reader T) : Prop where
  box : SameBox r'.shape r.shape
  /-- a node that some writer owned has the value that the writers agree on -/
  value : ∀ x v, r.shape.IsNode x → (∃ w ∈ ws, w.shape.IsNode x) →
    (∀ w ∈ ws, w.shape.IsNode x → cellAt w.shape w.data x = v) → cellAt r.shape r'.data x = v
  /-- every other cell (ghosts, nodes nobody wrote) is untouched -/
  other : ∀ y, r.shape.IsCell y → (r.shape.IsNode y → ∀ w ∈ ws, ¬ w.shape.IsNode y) →
    cellAt r.shape r'.data y = cellAt r.shape r.data y
  /-- a face shared with overlapping blocks gets the condition these agree on; other faces keep theirs -/
  lower : ∀ j, j < d →
    (∀ B, (∃ w ∈ ws, Overlaps r.shape w.shape ∧ r.shape.x0 j = w.shape.x0 j) →
      (∀ w ∈ ws, Overlaps r.shape w.shape → r.shape.x0 j = w.shape.x0 j → w.shape.b0 j = B) → r'.shape.b0 j = B) ∧
    ((∀ w ∈ ws, ¬ (Overlaps r.shape w.shape ∧ r.shape.x0 j = w.shape.x0 j)) → r'.shape.b0 j = r.shape.b0 j)
  upper : ∀ j, j < d →
    (∀ B, (∃ w ∈ ws, Overlaps r.shape w.shape ∧ r.shape.x1 j = w.shape.x1 j) →
      (∀ w ∈ ws, Overlaps r.shape w.shape → r.shape.x1 j = w.shape.x1 j → w.shape.b1 j = B) → r'.shape.b1 j = B) ∧
    ((∀ w ∈ ws, ¬ (Overlaps r.shape w.shape ∧ r.shape.x1 j = w.shape.x1 j)) → r'.shape.b1 j = r.shape.b1 j)

theorem readFrom_cons {T : Type} {d : Nat} {w : Reader T} {ws : List (Reader T)} {r r1 r' : Reader T}
    (hgh : 0 ≤ r.shape.ghosts) (h1 : Absorbed d w r r1) (h2 : ReadFrom d ws r1 r') : ReadFrom d (w :: ws) r r' := by
  have e : SameBox r1.shape r.shape := ⟨h1.dim, h1.x0, h1.x1, h1.ghosts⟩
  have ha : ∀ (data : Int → T) x, cellAt r1.shape data x = cellAt r.shape data x := fun data x => e.cellAt data x
  refine ⟨⟨h2.box.1.trans e.1, h2.box.2.1.trans e.2.1, h2.box.2.2.1.trans e.2.2.1, h2.box.2.2.2.trans e.2.2.2⟩, ?_, ?_, ?_, ?_⟩
  · intro x v hx hex hall
    by_cases hc : ∃ w' ∈ ws, w'.shape.IsNode x
    · have := h2.value x v ((e.node x).mpr hx) hc (fun w' hw' => hall w' (by simp [hw']))
      rwa [ha] at this
    · obtain ⟨w', hw', hn⟩ := hex
      have hww : w' = w := by
        rcases List.mem_cons.mp hw' with h | h
        · exact h
        · exact absurd ⟨w', h, hn⟩ hc
      subst hww
      have hcell : r1.shape.IsCell x := by
        rw [e.cell]
        intro j hj
        have := hx j hj
        omega
      have h3 := h2.other x hcell (fun _ w'' hw'' hn'' => hc ⟨w'', hw'', hn''⟩)
      rw [ha, ha] at h3
      rw [h3, h1.taken x hx hn]
      exact hall w' (by simp) hn
  · intro y hy hn
    have h3 := h2.other y ((e.cell y).mpr hy) (fun h w' hw' => hn ((e.node y).mp h) w' (by simp [hw']))
    rw [ha, ha] at h3
    rw [h3]
    apply h1.kept y hy
    rintro ⟨a, b⟩
    exact hn a w (by simp) b
  · intro j hj
    have hx0 : r1.shape.x0 = r.shape.x0 := e.2.1
    constructor
    · intro B hex hall
      by_cases hc : ∃ w' ∈ ws, Overlaps r.shape w'.shape ∧ r.shape.x0 j = w'.shape.x0 j
      · apply ((h2.lower j hj).1 B)
        · obtain ⟨w', hw', a, b⟩ := hc
          exact ⟨w', hw', e.overlaps.mpr a, by rw [hx0]; exact b⟩
        · intro w' hw' a b
          exact hall w' (by simp [hw']) (e.overlaps.mp a) (by rw [hx0] at b; exact b)
      · rw [(h2.lower j hj).2 (by
          rintro w' hw' ⟨a, b⟩
          exact hc ⟨w', hw', e.overlaps.mp a, by rw [hx0] at b; exact b⟩)]
        obtain ⟨w', hw', a, b⟩ := hex
        rcases List.mem_cons.mp hw' with h | h
        · subst h
          rw [(h1.lower j hj).1 a b]
          exact hall w' (by simp) a b
        · exact absurd ⟨w', h, a, b⟩ hc
    · intro hn
      rw [(h2.lower j hj).2 (by
        rintro w' hw' ⟨a, b⟩
        exact hn w' (by simp [hw']) ⟨e.overlaps.mp a, by rw [hx0] at b; exact b⟩)]
      exact (h1.lower j hj).2 (hn w (by simp))
  · intro j hj
    have hx1 : r1.shape.x1 = r.shape.x1 := e.2.2.1
    constructor
    · intro B hex hall
      by_cases hc : ∃ w' ∈ ws, Overlaps r.shape w'.shape ∧ r.shape.x1 j = w'.shape.x1 j
      · apply ((h2.upper j hj).1 B)
        · obtain ⟨w', hw', a, b⟩ := hc
          exact ⟨w', hw', e.overlaps.mpr a, by rw [hx1]; exact b⟩
        · intro w' hw' a b
          exact hall w' (by simp [hw']) (e.overlaps.mp a) (by rw [hx1] at b; exact b)
      · rw [(h2.upper j hj).2 (by
          rintro w' hw' ⟨a, b⟩
          exact hc ⟨w', hw', e.overlaps.mp a, by rw [hx1] at b; exact b⟩)]
        obtain ⟨w', hw', a, b⟩ := hex
        rcases List.mem_cons.mp hw' with h | h
        · subst h
          rw [(h1.upper j hj).1 a b]
          exact hall w' (by simp) a b
        · exact absurd ⟨w', h, a, b⟩ hc
    · intro hn
      rw [(h2.upper j hj).2 (by
        rintro w' hw' ⟨a, b⟩
        exact hn w' (by simp [hw']) ⟨e.overlaps.mp a, by rw [hx1] at b; exact b⟩)]
      exact (h1.upper j hj).2 (hn w (by simp))

theorem readBlocks_spec {T : Type} {c : Cell T} (hc : RoundTrips c) {comp : Option Zlib} (hz : Lawful comp) (fresh : T)
    {d : Nat} {ws : List (Reader T)} (hw : ∀ w ∈ ws, Writable c d w ∧ Shrinks comp c w) {r : Reader T}
    (hrd : r.shape.dim = d) (hgh : 0 ≤ r.shape.ghosts) (rest : List Byte) :
    ∃ b r', writeAll comp c ws = .ok b ∧ readBlocks comp c fresh ws.length r (b ++ rest) = .ok (r', rest) ∧
      ReadFrom d ws r r' := by
  induction ws generalizing r with
  | nil =>
    refine ⟨[], r, rfl, rfl, ⟨rfl, rfl, rfl, rfl⟩, ?_, ?_, ?_, ?_⟩
    · rintro x v _ ⟨w, hw, _⟩; simp at hw
    · intros; rfl
    · intro j _
      refine ⟨?_, fun _ => rfl⟩
      rintro B ⟨w, hw, _⟩; simp at hw
    · intro j _
      refine ⟨?_, fun _ => rfl⟩
      rintro B ⟨w, hw, _⟩; simp at hw
  | cons w ws ih =>
    obtain ⟨h1, h2⟩ := hw w (by simp)
    -- the tail can be written whatever the reader is
    obtain ⟨bs, _, hbs, _⟩ := ih (fun w' hw' => hw w' (by simp [hw'])) hrd hgh
    obtain ⟨b, r1, hb, hr1, hab⟩ := readBlock_spec hc hz fresh h1 h2 hrd hgh (bs ++ rest)
    obtain ⟨bs', r', hbs', hr', hrf⟩ := ih (r := r1) (fun w' hw' => hw w' (by simp [hw'])) (by rw [hab.dim, hrd])
      (by rw [hab.ghosts]; exact hgh)
    rw [hbs] at hbs'
    obtain rfl : bs = bs' := by simpa using hbs'
    refine ⟨b ++ bs, r', ?_, ?_, readFrom_cons hgh hab hrf⟩
    · simp only [writeAll, hb, hbs, Outcome.ok_bind]
    · simp only [List.length_cons, readBlocks, List.append_assoc, hr1, Outcome.ok_bind, hr']

/-- C15, any boxes: the data section written by any list of grids (of one global problem or not) is read back by any grid;
every node of the reader that some writer owned gets the written value, everything else is untouched, faces shared with the
writers get the written boundary conditions, and exactly the data section is consumed. -/
theorem read_dataSection {T : Type} {c : Cell T} (hc : RoundTrips c) {comp : Option Zlib} (hz : Lawful comp) (fresh : T)
    {d : Nat} {ws : List (Reader T)} (hn : ws.length < 2 ^ 31) (hw : ∀ w ∈ ws, Writable c d w ∧ Shrinks comp c w)
    {r : Reader T} (hrd : r.shape.dim = d) (hgh : 0 ≤ r.shape.ghosts) (rest : List Byte) :
    ∃ b r', dataSection comp c ws = .ok b ∧ read comp c fresh r (b ++ rest) = .ok (r', rest) ∧ ReadFrom d ws r r' := by
  obtain ⟨b, r', h1, h2, h3⟩ := readBlocks_spec hc hz fresh hw hrd hgh rest
  refine ⟨intBytes ws.length ++ b, r', ?_, ?_, h3⟩
  · simp only [dataSection, h1, Outcome.ok_bind]
  · unfold read
    rw [List.append_assoc, freadInt_intBytes ⟨by omega, by omega⟩]
    simp only [Outcome.ok_bind, Int.toNat_natCast, h2]

/-! ## Decomposed grids -/

/-- A grid object that holds a part (possibly empty) of the global box, with boundary conditions `B0`, `B1` on outer faces and
`parallel` on inner ones. -/
structure PartOf (d : Nat) (g0 g1 : Nat → Int) (B0 B1 : Nat → BC) (g : Shape) : Prop where
  dim : g.dim = d
  ghosts : 0 ≤ g.ghosts
  inside : ∀ j, j < d → (g0 j ≤ g.x0 j ∧ g.x0 j ≤ g1 j) ∧ (g0 j ≤ g.x1 j ∧ g.x1 j ≤ g1 j)
  lower : ∀ j, j < d → g.b0 j = if g.x0 j ≠ g0 j then .parallel else B0 j
  upper : ∀ j, j < d → g.b1 j = if g.x1 j ≠ g1 j then .parallel else B1 j

/-- The grid objects of a run together: parts of the global box that leave out no node, and agree with the field `F`. -/
structure Run {T : Type} (c : Cell T) (d : Nat) (g0 g1 : Nat → Int) (B0 B1 : Nat → BC) (F : (Nat → Int) → T)
    (ws : List (Reader T)) : Prop where
  count : ws.length < 2 ^ 31
  part : ∀ w ∈ ws, PartOf d g0 g1 B0 B1 w.shape
  cover : ∀ x, InGlobal d g0 g1 x → ∃ w ∈ ws, w.shape.IsNode x
  value : ∀ w ∈ ws, ∀ x, w.shape.IsNode x → cellAt w.shape w.data x = F x
  valid : ∀ w ∈ ws, ∀ o, 0 ≤ o → o < w.shape.cells → c.Valid (w.data o)
  small : ∀ w ∈ ws, ∀ n, bufferSize c w.shape 1 w.shape.x0 w.shape.x1 w.data = .ok n → n + n / 8 + 12 < 2 ^ 64

/-- C15: a grid of any cell type, held in any collection of boxes that cover the global box (any number of ranks, any
decomposition; one box: the serial program), with any boundary conditions on its outer faces, is written and read back by an
object holding any box of any other decomposition: it ends up with the written value at each of its nodes, its ghost cells are
untouched, outer faces carry the written boundary conditions, inner faces are `parallel`, and exactly the bytes of the data
section are consumed. -/
theorem restart {T : Type} {c : Cell T} (hc : RoundTrips c) {comp : Option Zlib} (hz : Lawful comp) (fresh : T)
    {d : Nat} (hd : 0 < d) {g0 g1 : Nat → Int} (hint : ∀ j, j < d → IsInt (g0 j) ∧ IsInt (g1 j))
    {B0 B1 : Nat → BC} {F : (Nat → Int) → T} {ws : List (Reader T)} (hrun : Run c d g0 g1 B0 B1 F ws)
    (hshrink : ∀ w ∈ ws, Shrinks comp c w)
    {B0' B1' : Nat → BC} {r : Reader T} (hr : PartOf d g0 g1 B0' B1' r.shape) (rest : List Byte) :
    ∃ b r', dataSection comp c ws = .ok b ∧ read comp c fresh r (b ++ rest) = .ok (r', rest) ∧
      SameBox r'.shape r.shape ∧
      (∀ x, r.shape.IsNode x → cellAt r'.shape r'.data x = F x) ∧
      (∀ y, r.shape.IsCell y → ¬ r.shape.IsNode y → cellAt r'.shape r'.data y = cellAt r.shape r.data y) ∧
      ((∃ x, r.shape.IsNode x) → PartOf d g0 g1 B0 B1 r'.shape) := by
  have hws : ∀ w ∈ ws, Writable c d w ∧ Shrinks comp c w := by
    intro w hw
    have hp := hrun.part w hw
    refine ⟨⟨hp.dim, ?_, hd, hp.ghosts, hrun.valid w hw, hrun.small w hw⟩, hshrink w hw⟩
    intro j hj
    have hl := hp.inside j hj
    have hi := hint j hj
    exact ⟨⟨le_trans hi.1.1 hl.1.1, lt_of_le_of_lt hl.1.2 hi.2.2⟩, ⟨le_trans hi.1.1 hl.2.1, lt_of_le_of_lt hl.2.2 hi.2.2⟩⟩
  obtain ⟨b, r', e1, e2, e3⟩ := read_dataSection hc hz fresh (ws := ws) hrun.count hws (r := r) hr.dim hr.ghosts rest
  have hcov : ∀ x, r.shape.IsNode x → ∃ w ∈ ws, w.shape.IsNode x := by
    intro x hx
    apply hrun.cover
    intro j hj
    have h1 := hx j (by rw [hr.dim]; exact hj)
    have h2 := hr.inside j hj
    omega
  refine ⟨b, r', e1, e2, e3.box, ?_, ?_, ?_⟩
  · intro x hx
    rw [e3.box.cellAt]
    exact e3.value x (F x) hx (hcov x hx) (fun w hw hx' => hrun.value w hw x hx')
  · intro y hy hn
    rw [e3.box.cellAt]
    exact e3.other y hy (fun h => absurd h hn)
  · rintro ⟨x, hx⟩
    have hside : ∀ i, i < r.shape.dim → r.shape.x0 i < r.shape.x1 i := by
      intro i hi
      have := hx i hi
      omega
    have hb := e3.box
    refine ⟨by rw [hb.1, hr.dim], by rw [hb.2.2.2]; exact hr.ghosts, ?_, ?_, ?_⟩
    · rw [hb.2.1, hb.2.2.1]; exact hr.inside
    · intro j hj
      rw [hb.2.1]
      have hrj := hr.inside j hj
      by_cases he : r.shape.x0 j = g0 j
      · rw [if_neg (not_not_intro he)]
        apply (e3.lower j hj).1
        · obtain ⟨w, hw, hx'⟩ := hcov r.shape.x0 (fun i hi => ⟨le_rfl, hside i hi⟩)
          refine ⟨w, hw, ⟨_, (fun i hi => ⟨le_rfl, hside i hi⟩), hx'⟩, ?_⟩
          have hp := hrun.part w hw
          have h2 := (hp.inside j hj).1.1
          have h3 := (hx' j (by rw [hp.dim]; exact hj)).1
          omega
        · intro w hw _ h3
          rw [(hrun.part w hw).lower j hj, if_neg (not_not_intro (by omega))]
      · rw [if_pos he]
        by_cases hex : ∃ w ∈ ws, Overlaps r.shape w.shape ∧ r.shape.x0 j = w.shape.x0 j
        · apply (e3.lower j hj).1 _ hex
          intro w hw _ h3
          rw [(hrun.part w hw).lower j hj, if_pos (by omega)]
        · rw [(e3.lower j hj).2 (fun w hw h => hex ⟨w, hw, h⟩), hr.lower j hj, if_pos he]
    · intro j hj
      rw [hb.2.2.1]
      have hrj := hr.inside j hj
      by_cases he : r.shape.x1 j = g1 j
      · rw [if_neg (not_not_intro he)]
        apply (e3.upper j hj).1
        · have hin : r.shape.IsNode (fun i => r.shape.x1 i - 1) := by
            intro i hi
            have := hside i hi
            beta_reduce
            omega
          obtain ⟨w, hw, hx'⟩ := hcov _ hin
          refine ⟨w, hw, ⟨_, hin, hx'⟩, ?_⟩
          have hp := hrun.part w hw
          have h2 := (hp.inside j hj).2.2
          have h3 := (hx' j (by rw [hp.dim]; exact hj)).2
          beta_reduce at h3
          omega
        · intro w hw _ h3
          rw [(hrun.part w hw).upper j hj, if_neg (not_not_intro (by omega))]
      · rw [if_pos he]
        by_cases hex : ∃ w ∈ ws, Overlaps r.shape w.shape ∧ r.shape.x1 j = w.shape.x1 j
        · apply (e3.upper j hj).1 _ hex
          intro w hw _ h3
          rw [(hrun.part w hw).upper j hj, if_pos (by omega)]
        · rw [(e3.upper j hj).2 (fun w hw h => hex ⟨w, hw, h⟩), hr.upper j hj, if_pos he]

/-! ## The boxes that `setup()` makes -/

/-- The serial object (`setup()` without MPI, `include/MMSP.grid.cpp` 144-150, and `input` 1222-1225), after the program has set
its boundary conditions. -/
def serialShape (d : Nat) (g0 g1 : Nat → Int) (B0 B1 : Nat → BC) : Shape := ⟨d, g0, g1, B0, B1, 0⟩

theorem serialShape_part {d : Nat} {g0 g1 : Nat → Int} (hg : ∀ j, j < d → g0 j ≤ g1 j) (B0 B1 : Nat → BC) :
    PartOf d g0 g1 B0 B1 (serialShape d g0 g1 B0 B1) where
  dim := rfl
  ghosts := le_refl _
  inside := fun j hj => ⟨⟨le_refl _, hg j hj⟩, ⟨hg j hj, le_refl _⟩⟩
  lower := fun j _ => (if_neg (not_not_intro rfl)).symm
  upper := fun j _ => (if_neg (not_not_intro rfl)).symm

/-- The grid object of rank `r` of `p 0 × p 1 × …` processes: `setup()` (`Decomp.rankShape`), after the program has given the
outer faces the conditions `B0`, `B1` (faces between ranks keep `parallel`). -/
def faced (d : Nat) (g0 g1 : Nat → Int) (ghosts : Int) (p : Nat → Int) (B0 B1 : Nat → BC) (r : Int) : Shape :=
  let g := rankShape d g0 g1 ghosts p r
  ⟨d, g.x0, g.x1, fun j => if g.x0 j ≠ g0 j then .parallel else B0 j,
    fun j => if g.x1 j ≠ g1 j then .parallel else B1 j, ghosts⟩

/-- `setup()` is the case in which every outer face is periodic. -/
theorem faced_periodic (d : Nat) (g0 g1 : Nat → Int) (ghosts : Int) (p : Nat → Int) (r : Int) :
    faced d g0 g1 ghosts p (fun _ => .periodic) (fun _ => .periodic) r = rankShape d g0 g1 ghosts p r := rfl

theorem lim_range {np d : Nat} {g0 g1 p : Nat → Int} (hp : ProcGrid np d p) (hg : ∀ j, j < d → g0 j ≤ g1 j) {r : Int}
    (h0 : 0 ≤ r) (h1 : r < np) {j : Nat} (hj : j < d) :
    (g0 j ≤ (lim d g0 g1 p r j).1 ∧ (lim d g0 g1 p r j).1 ≤ g1 j) ∧
    (g0 j ≤ (lim d g0 g1 p r j).2 ∧ (lim d g0 g1 p r j).2 ≤ g1 j) := by
  have hb := pos_bounds hp h0 h1 hj
  rw [lim_eq hp hg h0 h1 hj]
  have hp0 := hp.1 j hj
  have m := fun k l (h : k ≤ l) => cut_mono (g0 := g0 j) (g1 := g1 j) (p := p j) (hg j hj) hp0 (k := k) (l := l) h
  have z : cut (g0 j) (g1 j) (p j) 0 = g0 j := cut_zero hp0
  have l : cut (g0 j) (g1 j) (p j) (p j) = g1 j := cut_last hp0
  have a1 := m 0 (pos d p r j) hb.1
  have a2 := m (pos d p r j) (p j) (by omega)
  have a3 := m 0 (pos d p r j + 1) (by omega)
  have a4 := m (pos d p r j + 1) (p j) (by omega)
  rw [z] at a1 a3
  rw [l] at a2 a4
  exact ⟨⟨a1, a2⟩, ⟨a3, a4⟩⟩

theorem faced_part {np d : Nat} {g0 g1 p : Nat → Int} (hp : ProcGrid np d p) (hg : ∀ j, j < d → g0 j ≤ g1 j) {ghosts : Int}
    (hgh : 0 ≤ ghosts) (B0 B1 : Nat → BC) {r : Int} (h0 : 0 ≤ r) (h1 : r < np) :
    PartOf d g0 g1 B0 B1 (faced d g0 g1 ghosts p B0 B1 r) where
  dim := rfl
  ghosts := hgh
  inside := fun _ hj => lim_range hp hg h0 h1 hj
  lower := fun _ _ => rfl
  upper := fun _ _ => rfl

/-- What `setup()` leaves behind on a rank (`Decomp.localShape`). -/
theorem localShape_part {np d : Nat} {g0 g1 : Nat → Int} (hnp : 0 < np) (hd : 0 < d) (hg : ∀ j, j < d → g0 j ≤ g1 j)
    {ghosts : Int} (hgh : 0 ≤ ghosts) {r : Int} (h0 : 0 ≤ r) (h1 : r < np) :
    PartOf d g0 g1 (fun _ => .periodic) (fun _ => .periodic) (localShape d g0 g1 ghosts np r) :=
  faced_part (choose_procGrid hnp hd hg) hg hgh _ _ h0 h1

/-- The grid objects of all ranks of a run that is about to write a file, in the order of their blocks. -/
def writers {T : Type} (np d : Nat) (g0 g1 : Nat → Int) (ghosts : Int) (p : Nat → Int) (B0 B1 : Nat → BC)
    (D : Int → Int → T) : List (Reader T) :=
  (List.range np).map fun n : Nat => ⟨faced d g0 g1 ghosts p B0 B1 (n : Int), D (n : Int)⟩

theorem mem_writers {T : Type} {np d : Nat} {g0 g1 : Nat → Int} {ghosts : Int} {p : Nat → Int} {B0 B1 : Nat → BC}
    {D : Int → Int → T} {w : Reader T} : w ∈ writers np d g0 g1 ghosts p B0 B1 D ↔
      ∃ q : Int, (0 ≤ q ∧ q < np) ∧ w = ⟨faced d g0 g1 ghosts p B0 B1 q, D q⟩ := by
  simp only [writers, List.mem_map, List.mem_range]
  constructor
  · rintro ⟨n, hn, rfl⟩; exact ⟨n, ⟨by omega, by omega⟩, rfl⟩
  · rintro ⟨q, ⟨a, b⟩, rfl⟩
    refine ⟨q.toNat, by omega, ?_⟩
    have : ((q.toNat : Nat) : Int) = q := Int.toNat_of_nonneg a
    rw [this]

/-- The ranks of a parallel program, in any process grid, are a `Run`. -/
theorem writers_run {T : Type} {c : Cell T} {np d : Nat} (hnp : np < 2 ^ 31) {g0 g1 p : Nat → Int} (hp : ProcGrid np d p)
    (hg : ∀ j, j < d → g0 j ≤ g1 j) {ghosts : Int} (hgh : 0 ≤ ghosts) {B0 B1 : Nat → BC} {D : Int → Int → T}
    {F : (Nat → Int) → T}
    (hF : ∀ r : Int, 0 ≤ r → r < np → ∀ x, InLocal d g0 g1 p r x → cellAt (faced d g0 g1 ghosts p B0 B1 r) (D r) x = F x)
    (hv : ∀ r : Int, 0 ≤ r → r < np → ∀ o, 0 ≤ o → o < (faced d g0 g1 ghosts p B0 B1 r).cells → c.Valid (D r o))
    (hsize : ∀ r : Int, 0 ≤ r → r < np → ∀ n, bufferSize c (faced d g0 g1 ghosts p B0 B1 r) 1
      (faced d g0 g1 ghosts p B0 B1 r).x0 (faced d g0 g1 ghosts p B0 B1 r).x1 (D r) = .ok n → n + n / 8 + 12 < 2 ^ 64) :
    Run c d g0 g1 B0 B1 F (writers np d g0 g1 ghosts p B0 B1 D) where
  count := by simpa [writers] using hnp
  part := by
    intro w hw
    obtain ⟨q, ⟨a, b⟩, rfl⟩ := mem_writers.mp hw
    exact faced_part hp hg hgh B0 B1 a b
  cover := by
    intro x hx
    obtain ⟨q, ⟨a, b, e⟩, _⟩ := partition (np := np) hp hg hx
    exact ⟨_, mem_writers.mpr ⟨q, ⟨a, b⟩, rfl⟩, e⟩
  value := by
    intro w hw x hx
    obtain ⟨q, ⟨a, b⟩, rfl⟩ := mem_writers.mp hw
    exact hF q a b x hx
  valid := by
    intro w hw
    obtain ⟨q, ⟨a, b⟩, rfl⟩ := mem_writers.mp hw
    exact hv q a b
  small := by
    intro w hw
    obtain ⟨q, ⟨a, b⟩, rfl⟩ := mem_writers.mp hw
    exact hsize q a b

/-- The serial program is a `Run`. -/
theorem serial_run {T : Type} {c : Cell T} {d : Nat} {g0 g1 : Nat → Int} (hg : ∀ j, j < d → g0 j ≤ g1 j) (B0 B1 : Nat → BC)
    {data : Int → T} (hv : ∀ o, 0 ≤ o → o < (serialShape d g0 g1 B0 B1).cells → c.Valid (data o))
    (hsize : ∀ n, bufferSize c (serialShape d g0 g1 B0 B1) 1 g0 g1 data = .ok n → n + n / 8 + 12 < 2 ^ 64) :
    Run c d g0 g1 B0 B1 (cellAt (serialShape d g0 g1 B0 B1) data) [⟨serialShape d g0 g1 B0 B1, data⟩] where
  count := by simp
  part := by
    intro w hw
    obtain rfl := List.mem_singleton.mp hw
    exact serialShape_part hg B0 B1
  cover := fun x hx => ⟨_, List.mem_singleton.mpr rfl, hx⟩
  value := by
    intro w hw x _
    obtain rfl := List.mem_singleton.mp hw
    rfl
  valid := by
    intro w hw
    obtain rfl := List.mem_singleton.mp hw
    exact hv
  small := by
    intro w hw
    obtain rfl := List.mem_singleton.mp hw
    exact hsize

end MMSP.FileIO
