import Verif.WrongEndianProps
/-!
# Property C38: whole files
-/

namespace MMSP.WrongEndian

open FileIO

/-! ## Specification: blocks and files of the other machine -/

/-- Limits and boundary conditions. -/
def foreignHeader (g : Shape) : List Byte :=
  ((List.range g.dim).flatMap fun j => foreignInt (g.x0 j) ++ foreignInt (g.x1 j)) ++
  ((List.range g.dim).flatMap fun j => foreignInt (g.b0 j).code ++ foreignInt (g.b1 j).code)

/-- A block with the data `raw`, compressed or not. -/
def foreignBlock (comp : Option Zlib) (g : Shape) (raw : List Byte) : List Byte :=
  foreignHeader g ++ foreignULong raw.length ++ foreignULong (stored comp raw).length ++ stored comp raw

/-- The other machine's representation of cells. -/
structure Foreign {T : Type} (type : List Byte) (c : Cell T) (enc : T → List Byte) (P : T → Prop) : Prop where
  /-- the data of any cells with the property `P` is converted -/
  data : ∀ l : List T, (∀ v ∈ l, P v) → swapData type (l.flatMap enc) = .ok (l.flatMap c.enc)
  /-- it is as long as the data of this machine -/
  length : ∀ v, (enc v).length = (c.enc v).length

theorem foreign_scalar {T : Type} {c : Codec T} {nm : String} (he : (nm, c.width) ∈ elements) (hw : c.width ≠ 1) :
    Foreign (gridName (ascii "scalar:" ++ ascii nm)) (primCell c) (foreignPrim c) (fun _ => True) ∧
    Foreign (gridName (ascii nm)) (primCell c) (foreignPrim c) (fun _ => True) :=
  ⟨⟨fun l _ => (scalar_data he hw l).1, fun _ => List.length_reverse⟩, ⟨fun l _ => (scalar_data he hw l).2, fun _ => List.length_reverse⟩⟩

theorem flatMap_length_congr {α : Type} {f g : α → List Byte} (l : List α) (h : ∀ a ∈ l, (f a).length = (g a).length) :
    (l.flatMap f).length = (l.flatMap g).length := by
  induction l with
  | nil => rfl
  | cons a l ih => rw [List.flatMap_cons, List.flatMap_cons, List.length_append, List.length_append, h a (by simp), ih fun b hb => h b (by simp [hb])]

theorem foreign_vector {T : Type} {c : Codec T} {nm : String} (he : (nm, c.width) ∈ elements) :
    Foreign (gridName (ascii "vector:" ++ ascii nm)) (arrayCell c) (foreignVector c) (fun v => v.length < 256) :=
  ⟨fun _ hl => vector_data he hl, fun v => by
    show (foreignInt _ ++ _).length = (intBytes _ ++ _).length
    rw [List.length_append, List.length_append, foreignInt, List.length_reverse, flatMap_length_congr (f := foreignPrim c) (g := c.enc) v fun a _ => List.length_reverse]⟩

theorem foreign_sparse {T : Type} {c : Codec T} {nm : String} (he : (nm, c.width) ∈ elements) (pad0 : { l : List Byte // l.length = 0 }) :
    Foreign (gridName (ascii "sparse:" ++ ascii nm)) (arrayCell (itemCodec c 0 pad0)) (foreignSparse c) (fun v => v.length < 256) :=
  ⟨fun _ hl => sparse_data he pad0 hl, fun v => by
    show (foreignInt _ ++ _).length = (intBytes _ ++ _).length
    rw [List.length_append, List.length_append, foreignInt, List.length_reverse]
    congr 1
    apply flatMap_length_congr
    intro it _
    show (foreignInt _ ++ it.2.1.1 ++ foreignPrim c _).length = (intBytes _ ++ it.2.1.1 ++ c.enc _).length
    simp only [List.length_append, foreignInt, foreignPrim, List.length_reverse]⟩

/-- The foreign data of the nodes of a rank. -/
def foreignRaw {T : Type} (enc : T → List Byte) (w : Reader T) : List Byte :=
  (visited w.shape 1 w.shape.x0 w.shape.x1 w.shape.dim 0).flatMap fun o => enc (w.data o)

/-! ## One block -/

theorem swapBuffer_ints (l : List Int) (rest : List Byte) : swapBuffer 4 l.length (l.flatMap foreignInt ++ rest) = .ok (l.flatMap intBytes, rest) := by
  induction l with
  | nil => rfl
  | cons a l ih => simp only [List.length_cons, swapBuffer, List.flatMap_cons, List.append_assoc, swapHere_int, Outcome.ok_bind, ih]

theorem swapBuffer_pairs (d : Nat) (a b : Nat → Int) (rest : List Byte) :
    swapBuffer 4 (2 * d) (((List.range d).flatMap fun j => foreignInt (a j) ++ foreignInt (b j)) ++ rest) =
      .ok ((List.range d).flatMap fun j => intBytes (a j) ++ intBytes (b j), rest) := by
  have hl : ((List.range d).flatMap fun j => [a j, b j]).length = 2 * d := by
    induction d with
    | zero => rfl
    | succ d ih => rw [List.range_succ, List.flatMap_append, List.length_append, ih]; simp; omega
  have := swapBuffer_ints ((List.range d).flatMap fun j => [a j, b j]) rest
  rw [hl, List.flatMap_assoc, List.flatMap_assoc] at this
  simpa using this

theorem ofLe_ulong {n : Nat} (h : n < 2 ^ 64) : ofLe (ulongBytes n) = n := by
  have := freadULong_ulongBytes h []
  unfold freadULong at this
  rw [fread_append' (ulongBytes_length n)] at this
  injection this with this
  exact congrArg Prod.fst this

theorem inflate_stored {comp : Option Zlib} {z : Zlib} (hz : z.Lawful) (hc : ∀ z', comp = some z' → z' = z) {raw : List Byte}
    (hs : (stored comp raw).length = raw.length → stored comp raw = raw) : inflate z raw.length (stored comp raw) = .ok raw := by
  unfold inflate
  by_cases h : (stored comp raw).length ≠ raw.length
  · rw [if_pos h]
    cases comp with
    | none => exact absurd rfl h
    | some z' =>
      have := hc z' rfl
      subst this
      simp only [stored, hz.inverse raw _ (show raw.length ≤ raw.length + raw.length / 8 + 12 by omega)]
  · rw [if_neg h, hs (by omega)]

theorem dataOf {T : Type} {c : Cell T} {d : Nat} {w : Reader T} (hw : Writable c d w) :
    toBuffer c w.shape 1 w.shape.x0 w.shape.x1 w.data = .ok ((visited w.shape 1 w.shape.x0 w.shape.x1 w.shape.dim 0).flatMap fun o => c.enc (w.data o)) ∧
    AllIn w.shape (visited w.shape 1 w.shape.x0 w.shape.x1 w.shape.dim 0) := by
  have hin : AllIn w.shape (visited w.shape 1 w.shape.x0 w.shape.x1 w.shape.dim 0) := by
    rcases hw.shape with hg | he
    · exact allIn_of_fits hg (by decide) (nodes_fit hg)
    · rw [visited_empty he]; intro o ho; simp at ho
  exact ⟨by unfold toBuffer; exact regionTo_eq _ le_rfl hin, hin⟩

/-- **C38.** A block of the other machine, compressed or not, is converted to the block this machine would have written for the same values. -/
theorem block_converts {T : Type} {type : List Byte} {c : Cell T} {enc : T → List Byte} {P : T → Prop} (hf : Foreign type c enc P) (hc : RoundTrips c)
    {z : Zlib} (hz : z.Lawful) {comp : Option Zlib} (hcomp : ∀ z', comp = some z' → z' = z) {d : Nat} {w : Reader T} (hw : Writable c d w)
    (hP : ∀ o, 0 ≤ o → o < w.shape.cells → P (w.data o))
    (hs : (stored comp (foreignRaw enc w)).length = (foreignRaw enc w).length → stored comp (foreignRaw enc w) = foreignRaw enc w) (rest : List Byte) :
    ∃ b, writeBuffer (some z) c w.shape w.data = .ok b ∧
      convertBlock z type d (foreignBlock comp w.shape (foreignRaw enc w) ++ rest) = .ok (b, rest) := by
  obtain ⟨hraw, hin⟩ := dataOf hw
  obtain ⟨raw, disk, h1, h2, h3, h4, h5⟩ := writeBuffer_eq hc (comp := some z) (fun z' e => by cases e; exact hz) hw
  rw [hraw] at h1
  have h1 := Outcome.ok.inj h1
  refine ⟨_, h5, ?_⟩
  have hlen : (foreignRaw enc w).length = raw.length := by
    rw [← h1]
    exact flatMap_length_congr _ fun o _ => hf.length _
  have hdata : swapData type (foreignRaw enc w) = .ok raw := by
    have := hf.data ((visited w.shape 1 w.shape.x0 w.shape.x1 w.shape.dim 0).map w.data) (by
      intro v hv
      obtain ⟨o, ho, rfl⟩ := List.mem_map.1 hv
      exact hP o (hin o ho).1 (hin o ho).2)
    rw [List.flatMap_map, List.flatMap_map, h1] at this
    exact this
  have hsmall : raw.length + raw.length / 8 + 12 < 2 ^ 64 := by
    obtain ⟨raw', e1, e2⟩ := pack_nodes hc hw
    rw [hraw, h1] at e1
    cases e1
    exact hw.small _ e2
  have hstored : (stored comp (foreignRaw enc w)).length < 2 ^ 64 := by
    cases comp with
    | none => show (foreignRaw enc w).length < _; omega
    | some z' =>
      have := hcomp z' rfl
      subst this
      have := hz.bound (foreignRaw enc w)
      show (z'.compress (foreignRaw enc w)).length < _
      omega
  have hinf := inflate_stored hz hcomp hs
  generalize foreignRaw enc w = fraw at *
  unfold convertBlock foreignBlock foreignHeader
  simp only [List.append_assoc, hw.dim]
  rw [swapBuffer_pairs]
  simp only [Outcome.ok_bind]
  rw [swapBuffer_pairs]
  simp only [Outcome.ok_bind]
  unfold foreignULong
  rw [swapHere_rev (ulongBytes_length _)]
  simp only [Outcome.ok_bind]
  rw [swapHere_rev (ulongBytes_length _)]
  simp only [Outcome.ok_bind]
  rw [ofLe_ulong hstored, fread_append]
  simp only [Outcome.ok_bind]
  rw [ofLe_ulong (by omega), hinf]
  simp only [Outcome.ok_bind, hdata]
  have hb := hz.bound raw
  rw [if_neg (by omega), h2]
  simp only [blockHeader, hw.dim, stored, List.append_assoc]

/-! ## Files -/

/-- A file of the other machine: the text header as `output` writes it, the number of blocks, the blocks. -/
def foreignFile {T D : Type} (comp : Option Zlib) (enc : T → List Byte) (dec : Decimal D) (nm : List Byte) (d : Nat) (fields : Int)
    (g0 g1 : Nat → Int) (dx : Nat → D) (ws : List (Reader T)) : List Byte :=
  header dec nm d fields g0 g1 dx ++ (foreignInt ws.length ++ ws.flatMap fun w => foreignBlock comp w.shape (foreignRaw enc w))

theorem blocks_convert {T : Type} {type : List Byte} {c : Cell T} {enc : T → List Byte} {P : T → Prop} (hf : Foreign type c enc P) (hc : RoundTrips c)
    {z : Zlib} (hz : z.Lawful) {comp : Option Zlib} (hcomp : ∀ z', comp = some z' → z' = z) {d : Nat} {ws : List (Reader T)}
    (hw : ∀ w ∈ ws, Writable c d w) (hP : ∀ w ∈ ws, ∀ o, 0 ≤ o → o < w.shape.cells → P (w.data o))
    (hs : ∀ w ∈ ws, (stored comp (foreignRaw enc w)).length = (foreignRaw enc w).length → stored comp (foreignRaw enc w) = foreignRaw enc w) :
    ∃ bs, List.Forall₂ (fun w b => writeBuffer (some z) c w.shape w.data = .ok b) ws bs ∧
      convertBlocks z type d ws.length (ws.flatMap fun w => foreignBlock comp w.shape (foreignRaw enc w)) = .ok bs := by
  induction ws with
  | nil => exact ⟨[], .nil, rfl⟩
  | cons w ws ih =>
    obtain ⟨bs, h1, h2⟩ := ih (fun u hu => hw u (by simp [hu])) (fun u hu => hP u (by simp [hu])) (fun u hu => hs u (by simp [hu]))
    obtain ⟨b, h3, h4⟩ := block_converts hf hc hz hcomp (hw w (by simp)) (hP w (by simp)) (hs w (by simp))
      (ws.flatMap fun w => foreignBlock comp w.shape (foreignRaw enc w))
    refine ⟨b :: bs, .cons h3 h1, ?_⟩
    rw [List.length_cons, convertBlocks, List.flatMap_cons, h4, Outcome.ok_bind, h2]
    rfl

theorem extractFloats_header {F : Type} (ft : FloatText F) {put : Nat → List Byte} {f : Nat → F} {d : Nat}
    (h : ∀ j, j < d → ∀ rest, ft.get (newline :: (put j ++ newline :: rest)) = some (f j, newline :: rest)) (rest : List Byte) :
    extractFloats ft d (newline :: (((List.range d).flatMap fun j => put j ++ [newline]) ++ rest)) = .ok ((List.range d).map f, newline :: rest) := by
  induction d generalizing put f with
  | zero => rfl
  | succ d ih =>
    rw [List.range_succ_eq_map, List.flatMap_cons, List.map_cons, List.flatMap_map, List.map_map]
    simp only [List.append_assoc, List.cons_append, List.nil_append]
    rw [extractFloats, h 0 (by omega)]
    simp only [orUb, Outcome.ok_bind]
    have := ih (put := fun j => put (j + 1)) (f := fun j => f (j + 1)) fun j hj rest => h (j + 1) (by omega) rest
    simp only [Function.comp_def, Nat.succ_eq_add_one]
    rw [this]
    rfl

theorem writeAll_blocks {T : Type} {comp : Option Zlib} {c : Cell T} {ws : List (Reader T)} {bs : List (List Byte)}
    (h : List.Forall₂ (fun w b => writeBuffer comp c w.shape w.data = .ok b) ws bs) : writeAll comp c ws = .ok bs.flatten := by
  induction h with
  | nil => rfl
  | cons h1 _ ih => simp only [writeAll, h1, ih, Outcome.ok_bind, List.flatten_cons]

theorem forall₂_map {α β : Type} {R : α → β → Prop} {l : List α} {l' : List β} (h : List.Forall₂ R l l') {a0 : α} {b0 : β} (order : List Nat)
    (ho : ∀ i ∈ order, i < l.length) : List.Forall₂ R (order.map fun i => l.getD i a0) (order.map fun i => l'.getD i b0) := by
  induction order with
  | nil => exact .nil
  | cons i order ih =>
    refine .cons ?_ (ih fun j hj => ho j (by simp [hj]))
    have hi := ho i (by simp)
    have : ∀ {l : List α} {l' : List β}, List.Forall₂ R l l' → ∀ i, i < l.length → R (l.getD i a0) (l'.getD i b0) := by
      intro l l' h
      induction h with
      | nil => intro i hi; simp at hi
      | cons hr _ ih => intro i hi; cases i with
        | zero => exact hr
        | succ i => simpa using ih i (by simpa using hi)
    exact this h i hi

/-- **C38.** A whole file of the other machine is converted to the file this machine would write for the same grid, whatever the order in which the threads finish
(the blocks of the ranks are then in that order). -/
theorem file_converts {T D F : Type} {type : List Byte} {c : Cell T} {enc : T → List Byte} {P : T → Prop} (hf : Foreign type c enc P) (hc : RoundTrips c)
    (htype : newline ∉ type) (hgrid : type.take 4 = ascii "grid") (hwidth : width type ≠ none)
    {z : Zlib} (hz : z.Lawful) {comp : Option Zlib} (hcomp : ∀ z', comp = some z' → z' = z) (dec : Decimal D) (ft : FloatText F)
    {d : Nat} (hd : 1 ≤ d ∧ d ≤ 3) {fields : Int} (hfields : IsInt fields) {g0 g1 : Nat → Int} (hint : ∀ j, j < d → IsInt (g0 j) ∧ IsInt (g1 j))
    {dx : Nat → D} (hdx : ∀ j, j < d → ∃ f, ft.put f = dec.put (dx j) ∧
      ∀ rest, ft.get (newline :: (dec.put (dx j) ++ newline :: rest)) = some (f, newline :: rest))
    {ws : List (Reader T)} (hn : ws.length < 2 ^ 31) (hw : ∀ w ∈ ws, Writable c d w) (hP : ∀ w ∈ ws, ∀ o, 0 ≤ o → o < w.shape.cells → P (w.data o))
    (hs : ∀ w ∈ ws, (stored comp (foreignRaw enc w)).length = (foreignRaw enc w).length → stored comp (foreignRaw enc w) = foreignRaw enc w)
    {order : List Nat} (ho : order.Perm (List.range ws.length)) (w0 : Reader T) :
    ∃ file, outputBytes (some z) c dec type d fields g0 g1 dx (order.map fun i => ws.getD i w0) = .ok file ∧
      convert z ft order (foreignFile comp enc dec type d fields g0 g1 dx ws) = .ok file := by
  obtain ⟨bs, h1, h2⟩ := blocks_convert hf hc hz hcomp hw hP hs
  have hol : order.length = ws.length := by rw [ho.length_eq, List.length_range]
  have hall := writeAll_blocks (forall₂_map h1 (a0 := w0) (b0 := []) order fun i hi => by
    have := ho.mem_iff.1 hi
    simpa using this)
  refine ⟨header dec type d fields g0 g1 dx ++ (intBytes ws.length ++ (order.map fun i => bs.getD i []).flatten), ?_, ?_⟩
  · unfold outputBytes dataSection
    rw [hall]
    simp only [Outcome.ok_bind, List.length_map, hol]
  · unfold convert foreignFile header
    simp only [List.append_assoc, List.cons_append]
    rw [getline_append htype]
    dsimp only
    rw [if_neg (not_not_intro hgrid), if_neg hwidth]
    have e1 := extractInt_intDec (n := (d : Int)) ⟨by omega, by omega⟩ (ws := []) (by simp) (b := newline) (by decide)
    simp only [List.nil_append] at e1
    rw [e1]
    dsimp only
    rw [if_neg (by omega)]
    have e2 := extractInt_intDec hfields (ws := [newline]) (by decide) (b := newline) (by decide)
    simp only [List.singleton_append] at e2
    rw [e2]
    simp only [orUb, Outcome.ok_bind, Int.toNat_natCast]
    have e3 := extractPairs_header (d := d) (l := (List.range d).map fun j => (g0 j, g1 j)) (by simp) (by
      intro p hp
      obtain ⟨j, hj, rfl⟩ := List.mem_map.1 hp
      exact hint j (List.mem_range.1 hj))
    simp only [List.flatMap_map] at e3
    rw [e3]
    simp only [Outcome.ok_bind]
    have hch : ∀ j, ∃ f, j < d → ft.put f = dec.put (dx j) ∧
        ∀ rest, ft.get (newline :: (dec.put (dx j) ++ newline :: rest)) = some (f, newline :: rest) := by
      intro j
      by_cases hj : j < d
      · obtain ⟨f, hf⟩ := hdx j hj
        exact ⟨f, fun _ => hf⟩
      · obtain ⟨f, _⟩ := hdx 0 (by omega)
        exact ⟨f, fun h => absurd h hj⟩
    obtain ⟨f, hfj⟩ := Classical.axiomOfChoice hch
    rw [extractFloats_header ft (put := fun j => dec.put (dx j)) (f := f) (fun j hj => (hfj j hj).2)]
    simp only [Outcome.ok_bind, ignore, if_true]
    rw [swapHere_int]
    simp only [Outcome.ok_bind]
    have hr : readInt (intBytes (ws.length : Int)) = .ok (ws.length : Int) := by
      have := freadInt_intBytes (n := (ws.length : Int)) ⟨by omega, by omega⟩ []
      unfold freadInt at this
      rw [fread_append' (intBytes_length _)] at this
      simp only [Outcome.ok_bind] at this
      cases h : readInt (intBytes (ws.length : Int)) with
      | ub => rw [h] at this; cases this
      | abort c => rw [h] at this; cases this
      | ok n => rw [h] at this; cases this; rfl
    rw [hr]
    simp only [Outcome.ok_bind, Int.toNat_natCast, h2]
    have hput : ((List.range d).flatMap fun j => ft.put (f j) ++ [newline]) = (List.range d).flatMap fun j => dec.put (dx j) ++ [newline] := by
      rw [List.flatMap_def, List.flatMap_def]
      congr 1
      apply List.map_congr_left
      intro j hj
      rw [(hfj j (List.mem_range.1 hj)).1]
    simp only [List.flatMap_map, hput, List.append_assoc, List.cons_append]

/-- The hypotheses of `file_converts` hold together: seven vectors of `int`s, not compressed by the other machine. -/
example (a b : Int → { l : List Byte // l.length = 4 }) :
    let data := fun o => [a o, b o, a (o + 1)]
    let w : Reader (List { l : List Byte // l.length = 4 }) := ⟨serialShape 1 (fun _ => -3) (fun _ => 4) (fun _ => .mirror) (fun _ => .neumann), data⟩
    let ft : FloatText { n : Int // -2 ^ 31 ≤ n ∧ n < 2 ^ 31 } := ⟨wholeDecimal.get, wholeDecimal.put⟩
    ∃ file, outputBytes (some growZ) (arrayCell (rawCodec 4)) wholeDecimal (gridName (ascii "vector:int")) 1 3 (fun _ => -3) (fun _ => 4) (fun _ => ⟨2, by decide⟩) [w] = .ok file ∧
      convert growZ ft [0] (foreignFile none (foreignVector (rawCodec 4)) wholeDecimal (gridName (ascii "vector:int")) 1 3 (fun _ => -3) (fun _ => 4) (fun _ => ⟨2, by decide⟩) [w]) = .ok file := by
  intro data w ft
  refine file_converts (foreign_vector (c := rawCodec 4) (nm := "int") (by decide)) (vectorCell_roundTrips _) (by decide) (by decide) (by decide) growZ_lawful
    (comp := none) (by simp) wholeDecimal ft (by decide) ⟨by decide, by decide⟩ (fun _ _ => ⟨⟨by decide, by decide⟩, ⟨by decide, by decide⟩⟩) ?_ (ws := [w]) (by show 1 < _; decide) ?_ ?_ ?_
    (order := [0]) (List.Perm.refl _) w
  · intro j hj
    exact ⟨⟨2, by decide⟩, rfl, fun rest => wholeDecimal.get_put _ rest⟩
  · intro u hu
    rw [List.mem_singleton.1 hu]
    refine ⟨rfl, fun _ _ => (⟨⟨by decide, by decide⟩, ⟨by decide, by decide⟩⟩ : IsInt (-3) ∧ IsInt 4), by decide, (by decide : (0 : Int) ≤ 0), ?_, ?_⟩
    · intro o _ _
      show 3 < 2 ^ 31
      decide
    · intro n hn
      have e : bufferSize (arrayCell (rawCodec 4)) w.shape 1 w.shape.x0 w.shape.x1 w.data = .ok 112 := rfl
      have : 112 = n := Outcome.ok.inj (e.symm.trans hn)
      omega
  · intro u hu o _ _
    rw [List.mem_singleton.1 hu]
    show 3 < 256
    decide
  · intro u _ _; rfl

/-! ## The program only converts in one direction -/

theorem swapHere_ok {w : Nat} {b : List Byte} (h : b.length = w) (rest : List Byte) : swapHere w (b ++ rest) = .ok (b.reverse, rest) := by
  have := swapHere_rev (w := w) (b := b.reverse) (by simp [h]) rest
  rwa [List.reverse_reverse] at this

theorem swapBuffer_ok {w : Nat} : ∀ (n : Nat) (b rest : List Byte), b.length = n * w → ∃ b', swapBuffer w n (b ++ rest) = .ok (b', rest)
  | 0, b, rest, h => by
    have : b = [] := List.length_eq_zero_iff.1 (by simpa using h)
    exact ⟨[], by rw [this]; rfl⟩
  | n + 1, b, rest, h => by
    rw [Nat.succ_mul] at h
    obtain ⟨b', h'⟩ := swapBuffer_ok (w := w) n (b.drop w) rest (by rw [List.length_drop]; omega)
    have e : b ++ rest = b.take w ++ (b.drop w ++ rest) := by rw [← List.append_assoc, List.take_append_drop]
    refine ⟨(b.take w).reverse ++ b', ?_⟩
    rw [swapBuffer, e, swapHere_ok (by simp; omega), Outcome.ok_bind, h', Outcome.ok_bind]

theorem ofLe_reverse {n : Nat} (h0 : 0 < n) (h : n < 2 ^ 32) : 2 ^ 32 ≤ ofLe (ulongBytes n).reverse := by
  have e : ofLe (ulongBytes n).reverse = n % 256 * 256 ^ 7 + n / 256 % 256 * 256 ^ 6 + n / 256 / 256 % 256 * 256 ^ 5 + n / 256 / 256 / 256 % 256 * 256 ^ 4 := by
    have h4 : n / 256 / 256 / 256 / 256 = 0 := by omega
    simp only [ulongBytes, leBytes, List.reverse_cons, List.reverse_nil, List.nil_append, List.cons_append, ofLe, UInt8.toNat_ofNat', Nat.reducePow, Nat.mod_mod, h4,
      Nat.zero_div, Nat.zero_mod]
    generalize n % 256 = a
    generalize n / 256 % 256 = b
    generalize n / 256 / 256 % 256 = c
    generalize n / 256 / 256 / 256 % 256 = e
    omega
  rw [e]
  omega

theorem pairs_length (d : Nat) (a b : Nat → Int) : ((List.range d).flatMap fun j => intBytes (a j) ++ intBytes (b j)).length = 2 * d * 4 := by
  induction d with
  | zero => rfl
  | succ d ih =>
    rw [List.range_succ, List.flatMap_append, List.length_append, ih]
    simp [intBytes_length]
    omega

/-- **C37.** Given a block that is already in this machine's order, the program reads past the end of the file: it is not its own inverse, although the byte swap is. -/
theorem native_block_fails {T : Type} {c : Cell T} (hc : RoundTrips c) (z : Zlib) (type : List Byte) {comp : Option Zlib} (hz : ∀ z', comp = some z' → z'.Lawful) {d : Nat} {w : Reader T}
    (hw : Writable c d w) {b : List Byte} (hb : writeBuffer comp c w.shape w.data = .ok b) {rest : List Byte} (hlen : (b ++ rest).length < 2 ^ 32)
    (hne : b.length ≠ 16 * d + 16) : convertBlock z type d (b ++ rest) = .ub := by
  obtain ⟨raw, disk, h1, h2, h3, h4, h5⟩ := writeBuffer_eq hc hz hw
  rw [hb] at h5
  cases h5
  unfold convertBlock blockHeader at *
  simp only [List.append_assoc, hw.dim] at *
  obtain ⟨x, hx⟩ := swapBuffer_ok (w := 4) (2 * d) _ (((List.range d).flatMap fun j => intBytes (w.shape.b0 j).code ++ intBytes (w.shape.b1 j).code) ++ (ulongBytes raw.length ++ (ulongBytes disk.length ++ (disk ++ rest)))) (pairs_length d w.shape.x0 w.shape.x1)
  rw [hx]
  simp only [Outcome.ok_bind]
  obtain ⟨y, hy⟩ := swapBuffer_ok (w := 4) (2 * d) _ (ulongBytes raw.length ++ (ulongBytes disk.length ++ (disk ++ rest))) (pairs_length d (fun j => (w.shape.b0 j).code) fun j => (w.shape.b1 j).code)
  rw [hy]
  simp only [Outcome.ok_bind]
  rw [swapHere_ok (ulongBytes_length _)]
  simp only [Outcome.ok_bind]
  rw [swapHere_ok (ulongBytes_length _)]
  simp only [Outcome.ok_bind]
  have p1 := pairs_length d w.shape.x0 w.shape.x1
  have p2 := pairs_length d (fun j => (w.shape.b0 j).code) fun j => (w.shape.b1 j).code
  simp only [List.length_append, ulongBytes_length, p1, p2] at hlen hne
  have := ofLe_reverse (n := disk.length) (by omega) (by omega)
  unfold fread
  rw [if_neg (by rw [List.length_append]; omega)]
  rfl

end MMSP.WrongEndian
