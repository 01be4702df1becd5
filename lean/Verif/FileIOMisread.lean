import Verif.FileIOProps
/-!
# Property C16: a block that compression leaves at its original length is misread
-/

namespace MMSP.FileIO

open MMSP.Decomp

theorem irange_nodup {st : Nat} (hst : 0 < st) (a b : Int) : (irange st a b).Nodup := by
  unfold irange
  refine List.Nodup.map ?_ List.nodup_range
  intro k l h
  have h' : (st : Int) * k = st * l := by simpa using h
  have hne : (st : Int) ≠ 0 := by exact_mod_cast hst.ne'
  exact_mod_cast mul_left_cancel₀ hne h'

theorem points_nodup {d st : Nat} (hst : 0 < st) (mn mx : Nat → Int) {k : Nat} (hk : k ≤ d) :
    (points d st mn mx k).Nodup := by
  induction k with
  | zero => simp [points]
  | succ k ih =>
    simp only [points]
    rw [List.nodup_flatMap]
    constructor
    · intro x _
      refine List.Nodup.map_on ?_ (ih (by omega))
      intro y hy z hz h
      have h1 := (mem_points hst (by omega : k ≤ d)).mp hy
      have h2 := (mem_points hst (by omega : k ≤ d)).mp hz
      funext j
      by_cases hj : j = d - (k + 1)
      · rw [h1.2 j (by omega), h2.2 j (by omega)]
      · have := congrFun h j
        rwa [Function.update_of_ne hj, Function.update_of_ne hj] at this
    · refine List.Pairwise.imp ?_ (irange_nodup hst _ _)
      intro a b hab
      rw [Function.onFun, List.disjoint_left]
      intro y hy hy'
      obtain ⟨u, _, rfl⟩ := List.mem_map.mp hy
      obtain ⟨v, _, e⟩ := List.mem_map.mp hy'
      have := congrFun e (d - (k + 1))
      rw [Function.update_self, Function.update_self] at this
      exact hab this.symm

theorem visited_nodup {g : Shape} {st : Nat} (hst : 0 < st) {mn mx : Nat → Int} (hf : RegionFits g st mn mx) :
    (visited g st mn mx g.dim 0).Nodup := by
  rw [visited_full]
  refine List.Nodup.map_on ?_ (points_nodup hst mn mx le_rfl)
  intro x hx y hy h
  have h1 := (mem_points hst le_rfl).mp hx
  have h2 := (mem_points hst le_rfl).mp hy
  have hs := Shape.rawOffset_inj (hf x (points_region hst hx)) (hf y (points_region hst hy)) h
  funext j
  by_cases hj : j < g.dim
  · exact hs j hj
  · rw [h1.2 j (by omega), h2.2 j (by omega)]

/-- Every byte string of the right length is the packed form of some contents, when every byte string of the width of a cell
represents a value (integers of any size; IEEE numbers up to NaN payloads). -/
theorem packing_onto {T : Type} (c : Codec T) (hsurj : ∀ b : List Byte, b.length = c.width → c.enc (c.dec b) = b) (data : Int → T)
    (L : List Int) (hL : L.Nodup) (bytes : List Byte) (hlen : bytes.length = L.length * c.width) :
    ∃ data2 : Int → T, L.flatMap (fun o => c.enc (data2 o)) = bytes := by
  induction L generalizing bytes with
  | nil =>
    refine ⟨data, ?_⟩
    simp at hlen
    simp [hlen]
  | cons o L ih =>
    have hL' := List.nodup_cons.mp hL
    have hl : bytes.length = L.length * c.width + c.width := by rw [hlen, List.length_cons]; ring
    obtain ⟨d2, h2⟩ := ih hL'.2 (bytes.drop c.width) (by rw [List.length_drop]; omega)
    refine ⟨Function.update d2 o (c.dec (bytes.take c.width)), ?_⟩
    rw [List.flatMap_cons, Function.update_self, hsurj _ (by rw [List.length_take]; omega)]
    have : L.flatMap (fun o' => c.enc (Function.update d2 o (c.dec (bytes.take c.width)) o')) =
        L.flatMap (fun o' => c.enc (d2 o')) := by
      apply List.flatMap_congr
      intro o' ho'
      rw [Function.update_of_ne (by rintro rfl; exact hL'.1 ho')]
    rw [this, h2, List.take_append_drop]

/-- C16: if zlib turns the bytes of a block into equally many different bytes, then reading the block back (into a grid with the
same box) reports success and leaves a wrong value at some node. -/
theorem equal_size_misread {T : Type} (c : Codec T) (hsurj : ∀ b : List Byte, b.length = c.width → c.enc (c.dec b) = b)
    {z : Zlib} (hz : z.Lawful) (fresh : T) {d : Nat} {w : Reader T} (hw : Writable (primCell c) d w) (hwf : w.shape.Wf)
    {raw : List Byte} (hraw : toBuffer (primCell c) w.shape 1 w.shape.x0 w.shape.x1 w.data = .ok raw)
    (hlen : (z.compress raw).length = raw.length) (hne : z.compress raw ≠ raw)
    {r : Reader T} (hbox : SameBox r.shape w.shape) (rest : List Byte) :
    ∃ b r', writeBuffer (some z) (primCell c) w.shape w.data = .ok b ∧
      readBlock (some z) (primCell c) fresh r (b ++ rest) = .ok (r', rest) ∧
      ∃ x, w.shape.IsNode x ∧ cellAt w.shape r'.data x ≠ cellAt w.shape w.data x := by
  have hc := primCell_roundTrips c
  have hlz : Lawful (some z) := by rintro z' ⟨⟩; exact hz
  obtain ⟨raw', disk, e1, rfl, l1, l2, hb⟩ := writeBuffer_eq hc hlz hw
  rw [hraw] at e1
  obtain rfl : raw = raw' := by simpa using e1
  have hfit := nodes_fit hwf
  have hin := allIn_of_fits hwf (by decide) hfit
  have hpk : ∀ data : Int → T, toBuffer (primCell c) w.shape 1 w.shape.x0 w.shape.x1 data =
      .ok ((visited w.shape 1 w.shape.x0 w.shape.x1 w.shape.dim 0).flatMap fun o => c.enc (data o)) :=
    fun data => regionTo_eq data le_rfl hin
  -- another content of the same grid whose packed form is the compressed block
  obtain ⟨data2, h2⟩ := packing_onto c hsurj w.data _ (visited_nodup (by decide) hfit) (z.compress raw) (by
    rw [hlen]
    have := hpk w.data
    rw [hraw] at this
    rw [Outcome.ok.inj this]
    generalize visited w.shape 1 w.shape.x0 w.shape.x1 w.shape.dim 0 = L
    induction L with
    | nil => simp
    | cons o L ih => rw [List.flatMap_cons, List.length_append, c.enc_length, ih, List.length_cons]; ring)
  have hp2 : toBuffer (primCell c) w.shape 1 w.shape.x0 w.shape.x1 data2 = .ok (z.compress raw) := by rw [hpk, h2]
  have hw2 : Writable (primCell c) d ⟨w.shape, data2⟩ :=
    ⟨hw.dim, hw.ints, hw.pos, hw.ghosts, fun _ _ _ => trivial, by
      intro n hn
      obtain ⟨raw2, a1, a2⟩ := region_pack hc hwf (by decide) hfit (data := data2) (fun _ _ _ => trivial)
      rw [hp2] at a1
      obtain rfl : z.compress raw = raw2 := by simpa using a1
      rw [hn] at a2
      obtain rfl : n = (z.compress raw).length := by simpa using a2
      obtain ⟨raw3, a3, a4⟩ := region_pack hc hwf (by decide) hfit (data := w.data) (fun _ _ _ => trivial)
      rw [hraw] at a3
      obtain rfl : raw = raw3 := by simpa using a3
      have := hw.small _ a4
      omega⟩
  -- the same bytes, written by a program without zlib from that other content
  obtain ⟨b2, r', w1, w2, w3⟩ := readBlock_spec hc (comp := none) (by rintro z' ⟨⟩) fresh hw2 (by rintro z' _ ⟨⟩)
    (r := r) (hbox.1.trans hw.dim) (by rw [hbox.2.2.2]; exact hw.ghosts) rest
  obtain ⟨raw2, disk2, f1, f2, _, _, hb2⟩ := writeBuffer_eq hc (comp := none) (by rintro z' ⟨⟩) hw2
  rw [hp2] at f1
  obtain rfl : z.compress raw = raw2 := by simpa using f1
  have f2' : disk2 = z.compress raw := f2
  subst f2'
  rw [w1] at hb2
  have hbb : b2 = blockHeader w.shape ++ ulongBytes raw.length ++ ulongBytes (z.compress raw).length ++ z.compress raw := by
    have := Outcome.ok.inj hb2
    rw [this, hlen]
  refine ⟨_, r', hb, ?_, ?_⟩
  · rw [show stored (some z) raw = z.compress raw from rfl, ← hbb]
    -- both builds take the branch without decompression
    have hu : unpack (some z) raw.length (z.compress raw) = unpack none raw.length (z.compress raw) := by
      unfold unpack
      rw [if_neg (by omega), if_neg (by omega)]
    have hsame : readBlock (some z) (primCell c) fresh r (b2 ++ rest) = readBlock none (primCell c) fresh r (b2 ++ rest) := by
      have hwd := hw.dim
      have hrd : r.shape.dim = d := hbox.1.trans hw.dim
      have hlim := readPairs_range (d := d) (a := w.shape.x0) (b := w.shape.x1) hw.ints
      have hbc := readPairs_range (d := d) (a := fun j => (w.shape.b0 j).code) (b := fun j => (w.shape.b1 j).code)
        (fun j _ => ⟨code_isInt _, code_isInt _⟩)
      rw [hbb]
      unfold readBlock blockHeader
      simp only [hwd, hrd, List.append_assoc, hlim, hbc, Outcome.ok_bind, freadULong_ulongBytes l1,
        freadULong_ulongBytes (show (z.compress raw).length < 2 ^ 64 by omega), fread_append, hu]
    rw [hsame]
    exact w2
  · by_contra hcon
    have hall : ∀ x, w.shape.IsNode x → cellAt w.shape r'.data x = cellAt w.shape w.data x := by
      intro x hx
      by_contra hn
      exact hcon ⟨x, hx, hn⟩
    have h2all : ∀ x, w.shape.IsNode x → cellAt w.shape data2 x = cellAt w.shape w.data x := by
      intro x hx
      rw [← hall x hx]
      have := w3.taken x ((hbox.node x).mpr hx) hx
      rw [hbox.cellAt] at this
      exact this.symm
    apply hne
    have a1 := hpk w.data
    rw [hraw] at a1
    refine h2.symm.trans (Eq.trans ?_ (Outcome.ok.inj a1).symm)
    apply List.flatMap_congr
    intro o ho
    rw [visited_full] at ho
    obtain ⟨x, hx, rfl⟩ := List.mem_map.mp ho
    have := h2all x (fun j hj => by have := points_region (by decide) hx j hj; exact ⟨this.1, this.2.1⟩)
    exact congrArg c.enc this

/-! ## Instances -/

/-- Single bytes. -/
def byteCodec : Codec Byte where
  width := 1
  enc := fun b => [b]
  dec := fun l => l.headD 0
  enc_length := fun _ => rfl
  dec_enc := fun _ => rfl

/-- A compressor that always adds a byte. -/
def growZ : Zlib where
  compress := fun b => 0 :: b
  uncompress := fun cap b => if b.length ≤ cap + 1 then .ok b.tail else .bufError

theorem growZ_lawful : growZ.Lawful where
  inverse := by
    intro b cap h
    have : (growZ.compress b).length ≤ cap + 1 := by simp [growZ, h]
    exact if_pos this
  bound := by intro b; simp [growZ]; omega

/-- A compressor that keeps the length. -/
def sameZ : Zlib where
  compress := fun b => b.map (· + 1)
  uncompress := fun cap b => if b.length ≤ cap then .ok (b.map (· - 1)) else .bufError

theorem sameZ_lawful : sameZ.Lawful where
  inverse := by
    intro b cap h
    have h1 : (sameZ.compress b).length ≤ cap := by simp [sameZ, h]
    refine (if_pos h1).trans ?_
    simp [sameZ, List.map_map, Function.comp_def]
  bound := by intro b; simp [sameZ]; omega

/-- Grid contents with prescribed values. -/
theorem exists_data {T : Type} [Inhabited T] (g : Shape) (F : (Nat → Int) → T)
    (hF : ∀ x y, g.SamePoint x y → F x = F y) : ∃ data : Int → T, ∀ x, g.IsCell x → cellAt g data x = F x := by
  classical
  refine ⟨fun o => if h : ∃ x, g.IsCell x ∧ g.rawOffset x = o then F h.choose else default, ?_⟩
  intro x hx
  have h : ∃ y, g.IsCell y ∧ g.rawOffset y = g.rawOffset x := ⟨x, hx, rfl⟩
  refine (dif_pos h).trans ?_
  exact hF _ _ (Shape.rawOffset_inj h.choose_spec.1 hx h.choose_spec.2)

/-- The hypotheses of `restart` hold together for five nodes on one axis holding `3 x + 1`, with a Dirichlet and a Neumann face,
written by two ranks with ghost width 1 through a compressor, and read by rank 1 of three. -/
example : ∃ (D : Int → Int → Byte) (b : List Byte) (r' : Reader Byte),
    dataSection (some growZ) (primCell byteCodec)
      (writers 2 1 (fun _ => 0) (fun _ => 5) 1 (fun _ => 2) (fun _ => .dirichlet) (fun _ => .neumann) D) = .ok b ∧
    read (some growZ) (primCell byteCodec) 0 ⟨rankShape 1 (fun _ => 0) (fun _ => 5) 1 (fun _ => 3) 1, fun _ => 0⟩ (b ++ []) =
      .ok (r', []) ∧
    (∀ x, InLocal 1 (fun _ => 0) (fun _ => 5) (fun _ => 3) 1 x →
      cellAt r'.shape r'.data x = UInt8.ofNat (3 * x 0 + 1).toNat) := by
  let sh : Int → Shape := faced 1 (fun _ => 0) (fun _ => 5) 1 (fun _ => 2) (fun _ => .dirichlet) (fun _ => .neumann)
  have hD : ∀ r : Int, ∃ data : Int → Byte, ∀ x, (sh r).IsCell x → cellAt (sh r) data x = UInt8.ofNat (3 * x 0 + 1).toNat :=
    fun r => exists_data (sh r) (fun x => UInt8.ofNat (3 * x 0 + 1).toNat)
      (fun x y h => by rw [h 0 (show 0 < 1 by decide)])
  choose D hD using hD
  have hrun : Run (primCell byteCodec) 1 (fun _ => 0) (fun _ => 5) (fun _ => .dirichlet) (fun _ => .neumann)
      (fun x => UInt8.ofNat (3 * x 0 + 1).toNat)
      (writers 2 1 (fun _ => 0) (fun _ => 5) 1 (fun _ => 2) (fun _ => .dirichlet) (fun _ => .neumann) D) := by
    refine writers_run (by decide) ⟨fun _ _ => show (0 : Int) < 2 by decide, by decide⟩ (fun _ _ => by decide) (by decide)
      ?_ (fun _ _ _ _ _ _ => trivial) ?_
    · intro r _ _ x hx
      apply hD r x
      intro j hj
      have := hx j hj
      have h5 : (lim 1 (fun _ => 0) (fun _ => 5) (fun _ => 2) r j).1 - 1 ≤ x j ∧
        x j < (lim 1 (fun _ => 0) (fun _ => 5) (fun _ => 2) r j).2 + 1 := by omega
      exact h5
    · intro r h0 h1 n hn
      have : r = 0 ∨ r = 1 := by omega
      rcases this with rfl | rfl
      · have e : bufferSize (primCell byteCodec) (sh 0) 1 (sh 0).x0 (sh 0).x1 (D 0) = .ok 3 := rfl
        have := e.symm.trans hn
        have : 3 = n := Outcome.ok.inj this
        omega
      · have e : bufferSize (primCell byteCodec) (sh 1) 1 (sh 1).x0 (sh 1).x1 (D 1) = .ok 2 := rfl
        have := e.symm.trans hn
        have : 2 = n := Outcome.ok.inj this
        omega
  obtain ⟨b, r', h1, h2, _, h3, _⟩ := restart (T := Byte) (c := primCell byteCodec) (primCell_roundTrips _) (comp := some growZ)
    (by rintro z ⟨⟩; exact growZ_lawful) 0 (d := 1) (by decide)
    (fun _ _ => ⟨⟨by decide, by decide⟩, ⟨by decide, by decide⟩⟩) hrun
    (by
      rintro w _ z raw ⟨⟩ _ h
      simp [growZ] at h)
    (r := ⟨rankShape 1 (fun _ => 0) (fun _ => 5) 1 (fun _ => 3) 1, fun _ => 0⟩)
    (faced_part (np := 3) ⟨fun _ _ => show (0 : Int) < 3 by decide, by decide⟩ (fun _ _ => by decide) (by decide)
      (fun _ => .periodic) (fun _ => .periodic) (r := 1) (by decide) (by decide)) []
  exact ⟨D, b, r', h1, h2, h3⟩

/-- The hypotheses of `equal_size_misread` hold together: two nodes holding zero. -/
example : ∃ b r', writeBuffer (some sameZ) (primCell byteCodec) (blockShape 1 (fun _ => 0) (fun _ => 2)) (fun _ => 0) = .ok b ∧
    readBlock (some sameZ) (primCell byteCodec) 0 ⟨blockShape 1 (fun _ => 0) (fun _ => 2), fun _ => 9⟩ (b ++ []) = .ok (r', []) ∧
    ∃ x, (blockShape 1 (fun _ => 0) (fun _ => 2)).IsNode x ∧
      cellAt (blockShape 1 (fun _ => 0) (fun _ => 2)) r'.data x ≠ 0 := by
  have e : bufferSize (primCell byteCodec) (blockShape 1 (fun _ => 0) (fun _ => 2)) 1 (fun _ => 0) (fun _ => 2)
    (fun _ => 0) = .ok 2 := rfl
  exact equal_size_misread byteCodec (fun b hb => by
      obtain ⟨a, rfl⟩ := List.length_eq_one_iff.mp hb
      rfl) sameZ_lawful 0 (d := 1)
    (w := ⟨blockShape 1 (fun _ => 0) (fun _ => 2), fun _ => 0⟩)
    ⟨rfl, fun _ _ => (show IsInt 0 ∧ IsInt 2 from ⟨⟨by decide, by decide⟩, ⟨by decide, by decide⟩⟩), by decide, le_refl _, fun _ _ _ => trivial, by
      intro n hn
      have : 2 = n := Outcome.ok.inj (e.symm.trans hn)
      omega⟩ ⟨Nat.one_pos, fun _ _ => show (0 : Int) < 2 by decide, le_refl _⟩ (raw := [0, 0]) rfl rfl (by decide)
    (r := ⟨blockShape 1 (fun _ => 0) (fun _ => 2), fun _ => 9⟩) ⟨rfl, rfl, rfl, rfl⟩ []

end MMSP.FileIO
