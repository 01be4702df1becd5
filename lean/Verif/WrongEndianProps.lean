import Verif.WrongEndian
import Verif.FileHeaderProps
/-!
# Properties C37 and C38: changing the byte order
-/

namespace MMSP.WrongEndian

open FileIO

/-! ## Specification: files of a machine with the other byte order -/

/-- A primitive value. -/
def foreignPrim {T : Type} (c : Codec T) (v : T) : List Byte := (c.enc v).reverse
/-- An `int`. -/
def foreignInt (n : Int) : List Byte := (intBytes n).reverse
/-- An `unsigned long`. -/
def foreignULong (n : Nat) : List Byte := (ulongBytes n).reverse
/-- A `vector`: count and elements. -/
def foreignVector {T : Type} (c : Codec T) (v : List T) : List Byte := foreignInt v.length ++ v.flatMap (foreignPrim c)
/-- An entry of a `sparse`: index, alignment bytes, value. -/
def foreignItem {T : Type} (c : Codec T) {pad : Nat} (it : RawItem T pad) : List Byte :=
  foreignInt it.1.1 ++ it.2.1.1 ++ foreignPrim c it.2.2
/-- A `sparse`. -/
def foreignSparse {T : Type} (c : Codec T) {pad : Nat} (v : List (RawItem T pad)) : List Byte :=
  foreignInt v.length ++ v.flatMap (foreignItem c)

/-- Element types with their names (`include/MMSP.utility.h` 181-216) and widths. -/
def elements : List (String × Nat) :=
  [("bool", 1), ("char", 1), ("unsigned char", 1), ("int", 4), ("unsigned int", 4), ("long", 8), ("unsigned long", 8), ("short", 2),
    ("unsigned short", 2), ("float", 4), ("double", 8)]

/-! ## Swapping -/

theorem swapEndian_eq {w : Nat} {b : List Byte} (h : b.length = w) : swapEndian w b = b.reverse := by
  unfold swapEndian
  apply List.ext_getElem?
  intro i
  by_cases hi : i < w
  · rw [List.getElem?_map, List.getElem?_range hi, List.getElem?_reverse (by omega)]
    simp only [Option.map_some]
    rw [List.getD_eq_getElem?_getD, h, show w - i - 1 = w - 1 - i by omega, List.getElem?_eq_getElem (by omega)]
    rfl
  · rw [List.getElem?_eq_none (by simp; omega), List.getElem?_eq_none (by simp; omega)]

/-- **C37.** Swapping reverses the bytes, and swapping again restores them. -/
theorem swapEndian_involutive {w : Nat} {b : List Byte} (h : b.length = w) :
    swapEndian w b = b.reverse ∧ swapEndian w (swapEndian w b) = b := by
  have e := swapEndian_eq h
  refine ⟨e, ?_⟩
  rw [e, swapEndian_eq (by simpa using h), List.reverse_reverse]

example : swapEndian 4 [1, 2, 3, 4] = [4, 3, 2, 1] := by decide

theorem swapHere_rev {w : Nat} {b : List Byte} (h : b.length = w) (rest : List Byte) : swapHere w (b.reverse ++ rest) = .ok (b, rest) := by
  unfold swapHere
  have hl : b.reverse.length = w := by simpa using h
  rw [if_pos (by rw [List.length_append]; omega), List.take_append_of_le_length (by omega), List.take_of_length_le (by omega),
    swapEndian_eq hl, List.reverse_reverse, ← hl, List.drop_left]

theorem intBytes_length (n : Int) : (intBytes n).length = 4 := by simp [intBytes, leBytes]
theorem ulongBytes_length (n : Nat) : (ulongBytes n).length = 8 := by simp [ulongBytes, leBytes]

theorem swapHere_int (n : Int) (rest : List Byte) : swapHere 4 (foreignInt n ++ rest) = .ok (intBytes n, rest) :=
  swapHere_rev (intBytes_length n) rest

theorem swapHere_prim {T : Type} (c : Codec T) (v : T) (rest : List Byte) : swapHere c.width (foreignPrim c v ++ rest) = .ok (c.enc v, rest) :=
  swapHere_rev (c.enc_length v) rest

theorem swapBuffer_prims {T : Type} (c : Codec T) (v : List T) (rest : List Byte) :
    swapBuffer c.width v.length (v.flatMap (foreignPrim c) ++ rest) = .ok (v.flatMap c.enc, rest) := by
  induction v with
  | nil => rfl
  | cons a v ih =>
    simp only [List.length_cons, swapBuffer, List.flatMap_cons, List.append_assoc, swapHere_prim, Outcome.ok_bind, ih]

/-- **C37.** A swapped buffer swapped again is the buffer, element by element and for every element width. -/
theorem swapBuffer_involutive (w : Nat) : ∀ (n : Nat) (s : List Byte), n * w ≤ s.length →
    ∃ t, swapBuffer w n s = .ok (t, s.drop (n * w)) ∧ t.length = n * w ∧ swapBuffer w n (t ++ s.drop (n * w)) = .ok (s.take (n * w), s.drop (n * w)) := by
  intro n
  induction n with
  | zero => intro s _; exact ⟨[], by simp [swapBuffer], by simp, by simp [swapBuffer]⟩
  | succ n ih =>
    intro s h
    rw [Nat.succ_mul] at h
    obtain ⟨t, e1, e2, e3⟩ := ih (s.drop w) (by rw [List.length_drop]; omega)
    rw [List.drop_drop] at e1 e3
    have hl : (s.take w).length = w := by rw [List.length_take]; omega
    have hs : swapHere w s = .ok ((s.take w).reverse, s.drop w) := by
      unfold swapHere
      rw [if_pos (by omega), swapEndian_eq hl]
    have hadd : (n + 1) * w = w + n * w := by rw [Nat.succ_mul, Nat.add_comm]
    refine ⟨(s.take w).reverse ++ t, ?_, ?_, ?_⟩
    · rw [swapBuffer, hs, Outcome.ok_bind, e1, hadd]; rfl
    · rw [List.length_append, List.length_reverse, hl, e2, hadd]
    · rw [swapBuffer, List.append_assoc, swapHere_rev hl, Outcome.ok_bind, hadd, e3]
      simp only [Outcome.ok_bind]
      rw [List.take_add]

/-! ## Walking through the cells -/

theorem walk_cells {α : Type} {step : List Byte → Outcome (List Byte × List Byte)} {foreign native : α → List Byte} {l : List α}
    (h : ∀ v ∈ l, foreign v ≠ [] ∧ ∀ rest, step (foreign v ++ rest) = .ok (native v, rest)) :
    ∀ n, (l.flatMap foreign).length ≤ n → walk step n (l.flatMap foreign) = .ok (l.flatMap native) := by
  induction l with
  | nil => intro n _; cases n <;> rfl
  | cons v l ih =>
    intro n hn
    obtain ⟨hne, hst⟩ := h v (by simp)
    obtain ⟨b, s, hbs⟩ := List.exists_cons_of_ne_nil hne
    have hlen : (foreign v).length ≥ 1 := by rw [hbs]; simp
    rw [List.flatMap_cons, List.length_append] at hn
    obtain ⟨n, rfl⟩ : ∃ m, n = m + 1 := ⟨n - 1, by omega⟩
    have := hst (l.flatMap foreign)
    rw [List.flatMap_cons, List.flatMap_cons]
    rw [hbs] at this ⊢
    rw [List.cons_append] at this ⊢
    rw [walk, this, Outcome.ok_bind, ih (fun u hu => h u (by simp [hu])) n (by omega)]
    rfl

theorem count_foreign {k : Nat} (h : k < 256) (rest : List Byte) : count (foreignInt k ++ rest) = .ok (intBytes k, k, rest) := by
  unfold count
  rw [swapHere_int, Outcome.ok_bind]
  have : ((intBytes (k : Int)).getD 0 0).toNat = k := by
    show (UInt8.ofNat (((k : Int) % 2 ^ 32).toNat % 256)).toNat = k
    rw [UInt8.toNat_ofNat']
    omega
  rw [this]

theorem foreignInt_ne (n : Int) (l : List Byte) : foreignInt n ++ l ≠ [] := by
  intro h
  have := congrArg List.length h
  simp [foreignInt, intBytes_length] at this

theorem vectorStep_spec {T : Type} (c : Codec T) {v : List T} (h : v.length < 256) (rest : List Byte) :
    vectorStep c.width (foreignVector c v ++ rest) = .ok ((arrayCell c).enc v, rest) := by
  unfold vectorStep foreignVector
  rw [List.append_assoc, count_foreign h, Outcome.ok_bind]
  dsimp only
  have hl : (v.flatMap (foreignPrim c)).length = v.length * c.width := by
    induction v with
    | nil => simp
    | cons a v ih =>
      rw [List.flatMap_cons, List.length_append, ih (by simp at h; omega), List.length_cons, Nat.succ_mul]
      simp [foreignPrim, c.enc_length]; omega
  by_cases hw : c.width = 1
  · rw [if_pos hw]
    have hrev : v.flatMap (foreignPrim c) = v.flatMap c.enc := by
      congr 1
      funext a
      unfold foreignPrim
      have := c.enc_length a
      rw [hw] at this
      obtain ⟨x, hx⟩ := List.length_eq_one_iff.1 this
      rw [hx]; rfl
    rw [hw, Nat.mul_one] at hl
    have hsk : skip v.length (v.flatMap (foreignPrim c) ++ rest) = .ok (v.flatMap c.enc, rest) := by
      unfold skip
      rw [← hl, List.take_left, List.drop_left, hrev]
    rw [hsk]
    rfl
  · rw [if_neg hw, swapBuffer_prims]
    rfl

theorem items_spec {T : Type} (c : Codec T) (v : List (RawItem T 0)) (pad0 : { l : List Byte // l.length = 0 }) (rest : List Byte) :
    items c.width v.length (v.flatMap (foreignItem c) ++ rest) = .ok (v.flatMap (itemCodec c 0 pad0).enc, rest) := by
  induction v with
  | nil => rfl
  | cons it v ih =>
    have hp : it.2.1.1 = [] := List.length_eq_zero_iff.1 it.2.1.2
    have he : (itemCodec c 0 pad0).enc it = intBytes it.1.1 ++ c.enc it.2.2 := by
      show intBytes it.1.1 ++ it.2.1.1 ++ c.enc it.2.2 = _
      rw [hp, List.append_nil]
    simp only [List.length_cons, List.flatMap_cons, foreignItem, hp, List.append_nil, List.append_assoc, items, swapHere_int, Outcome.ok_bind, he]
    by_cases hw : c.width = 1
    · have hlen := c.enc_length it.2.2
      rw [hw] at hlen
      obtain ⟨x, hx⟩ := List.length_eq_one_iff.1 hlen
      have hf : foreignPrim c it.2.2 = [x] := by unfold foreignPrim; rw [hx]; rfl
      rw [hw] at ih
      rw [if_pos hw, hf, hx, hw]
      simp only [skip, Outcome.ok_bind, List.singleton_append, List.take_succ_cons, List.take_zero, List.drop_succ_cons, List.drop_zero]
      rw [ih]
      rfl
    · rw [if_neg hw, swapHere_prim]
      simp only [Outcome.ok_bind, ih]

theorem sparseStep_spec {T : Type} (c : Codec T) {v : List (RawItem T 0)} (pad0 : { l : List Byte // l.length = 0 }) (h : v.length < 256)
    (rest : List Byte) : sparseStep c.width (foreignSparse c v ++ rest) = .ok ((arrayCell (itemCodec c 0 pad0)).enc v, rest) := by
  unfold sparseStep foreignSparse
  rw [List.append_assoc, count_foreign h, Outcome.ok_bind, items_spec c v pad0, Outcome.ok_bind]
  rfl

/-! ## Type names -/

/-- **C38.** For every element type but `long double` and every class, the name leads to the right width and the right class. -/
theorem dispatch : ∀ e ∈ elements,
    width (gridName (ascii e.1)) = some e.2 ∧
    width (gridName (ascii "scalar:" ++ ascii e.1)) = some e.2 ∧ width (gridName (ascii "vector:" ++ ascii e.1)) = some e.2 ∧
    width (gridName (ascii "sparse:" ++ ascii e.1)) = some e.2 ∧
    (finds (ascii "scalar") (gridName (ascii e.1)) || finds (ascii "sparse") (gridName (ascii e.1)) || finds (ascii "vector") (gridName (ascii e.1))) = false ∧
    finds (ascii "scalar") (gridName (ascii "scalar:" ++ ascii e.1)) = true ∧
    finds (ascii "scalar") (gridName (ascii "vector:" ++ ascii e.1)) = false ∧ finds (ascii "vector") (gridName (ascii "vector:" ++ ascii e.1)) = true ∧
    finds (ascii "scalar") (gridName (ascii "sparse:" ++ ascii e.1)) = false ∧ finds (ascii "vector") (gridName (ascii "sparse:" ++ ascii e.1)) = false ∧
    finds (ascii "sparse") (gridName (ascii "sparse:" ++ ascii e.1)) = true := by decide +kernel

/-- **C38.** `long double` is taken for `long`, in every class. -/
theorem dispatch_longDouble : width (gridName (ascii "long double")) = some 8 ∧ width (gridName (ascii "scalar:long double")) = some 8 ∧
    width (gridName (ascii "vector:long double")) = some 8 ∧ width (gridName (ascii "sparse:long double")) = some 8 := by decide +kernel

/-! ## Data of a block -/

theorem enc_ne {T : Type} {c : Codec T} (hw : c.width ≠ 0) (v : T) : foreignPrim c v ≠ [] := by
  intro h
  have := congrArg List.length h
  rw [foreignPrim, List.length_reverse, c.enc_length] at this
  exact hw this

/-- **C38.** Data of a scalar grid (or a grid of plain numbers) of any type but `long double` is converted to the data of the same values. Types of one
byte are refused. -/
theorem scalar_data {T : Type} {c : Codec T} {nm : String} (he : (nm, c.width) ∈ elements) (hw : c.width ≠ 1) (l : List T) :
    swapData (gridName (ascii "scalar:" ++ ascii nm)) (l.flatMap (foreignPrim c)) = .ok (l.flatMap (primCell c).enc) ∧
    swapData (gridName (ascii nm)) (l.flatMap (foreignPrim c)) = .ok (l.flatMap (primCell c).enc) := by
  obtain ⟨d0, d1, _, _, d4, d5, _⟩ := dispatch _ he
  have h0 : c.width ≠ 0 := by
    intro h0
    rw [h0] at he
    revert he
    simp [elements]
  have hwalk := walk_cells (step := scalarStep c.width) (foreign := foreignPrim c) (native := (primCell c).enc) (l := l)
    (fun v _ => ⟨enc_ne h0 v, fun rest => swapHere_prim c v rest⟩) _ le_rfl
  dsimp only at d0 d1 d4 d5
  constructor
  · unfold swapData
    simp only [d1, d5, Bool.true_or, if_true, if_neg hw]
    exact hwalk
  · unfold swapData
    rw [Bool.or_eq_false_iff, Bool.or_eq_false_iff] at d4
    simp only [d0, d4, Bool.false_or, Bool.or_self, Bool.not_false, if_true, if_neg hw]
    exact hwalk

theorem one_byte_refused {T : Type} {c : Codec T} {nm : String} (he : (nm, c.width) ∈ elements) (hw : c.width = 1) (raw : List Byte) :
    swapData (gridName (ascii "scalar:" ++ ascii nm)) raw = .abort (-1) := by
  obtain ⟨_, d1, _, _, _, d5, _⟩ := dispatch _ he
  dsimp only at d1 d5
  unfold swapData
  simp only [d1, d5, Bool.true_or, if_true, if_pos hw]

/-- **C38.** Data of a vector grid whose cells have fewer than 256 elements each, of any type but `long double`, is converted to the data of the same
values. -/
theorem vector_data {T : Type} {c : Codec T} {nm : String} (he : (nm, c.width) ∈ elements) {l : List (List T)} (hl : ∀ v ∈ l, v.length < 256) :
    swapData (gridName (ascii "vector:" ++ ascii nm)) (l.flatMap (foreignVector c)) = .ok (l.flatMap (arrayCell c).enc) := by
  obtain ⟨_, _, d2, _, _, _, d6, d7, _⟩ := dispatch _ he
  dsimp only at d2 d6 d7
  unfold swapData
  simp only [d2, d6, d7, Bool.or_true, Bool.not_true, Bool.or_self, Bool.false_eq_true, if_false, if_true]
  exact walk_cells (fun v hv => ⟨foreignInt_ne _ _, fun rest => vectorStep_spec c (hl v hv) rest⟩) _ le_rfl

/-- **C38.** Data of a sparse grid whose entries have no alignment bytes (`int`, `unsigned int`, `float`) and whose cells have fewer than 256 entries each is
converted to the data of the same values. -/
theorem sparse_data {T : Type} {c : Codec T} {nm : String} (he : (nm, c.width) ∈ elements) (pad0 : { l : List Byte // l.length = 0 })
    {l : List (List (RawItem T 0))} (hl : ∀ v ∈ l, v.length < 256) :
    swapData (gridName (ascii "sparse:" ++ ascii nm)) (l.flatMap (foreignSparse c)) = .ok (l.flatMap (arrayCell (itemCodec c 0 pad0)).enc) := by
  obtain ⟨_, _, _, d3, _, _, _, _, d8, d9, d10⟩ := dispatch _ he
  dsimp only at d3 d8 d9 d10
  unfold swapData
  simp only [d3, d8, d9, d10, Bool.or_false, Bool.not_true, Bool.false_eq_true, if_false]
  exact walk_cells (fun v hv => ⟨foreignInt_ne _ _, fun rest => sparseStep_spec c pad0 (hl v hv) rest⟩) _ le_rfl

/-- Values that are their own bytes. -/
def rawCodec (w : Nat) : Codec { l : List Byte // l.length = w } where
  width := w
  enc := fun v => v.1
  dec := fun b => if h : b.length = w then ⟨b, h⟩ else ⟨List.replicate w 0, by simp⟩
  enc_length := fun v => v.2
  dec_enc := fun v => by rw [dif_pos v.2]

example : ("double", (rawCodec 8).width) ∈ elements ∧ ("float", (rawCodec 4).width) ∈ elements := by decide

/-- **C38.** A `long double` comes out with its two halves exchanged. -/
theorem longDouble_halves {T : Type} {c : Codec T} (hw : c.width = 16) (l : List T) :
    swapData (gridName (ascii "scalar:long double")) (l.flatMap (foreignPrim c)) = .ok (l.flatMap fun v => (c.enc v).drop 8 ++ (c.enc v).take 8) := by
  have hs : finds (ascii "scalar") (gridName (ascii "scalar:long double")) = true := by decide +kernel
  unfold swapData
  simp only [dispatch_longDouble.2.1, hs, Bool.true_or, if_true, if_neg (show ¬ (8 : Nat) = 1 by decide)]
  have e : l.flatMap (foreignPrim c) = (l.flatMap fun v => [(c.enc v).drop 8, (c.enc v).take 8]).flatMap List.reverse := by
    rw [List.flatMap_assoc]
    congr 1
    funext v
    simp only [List.flatMap_cons, List.flatMap_nil, List.append_nil, foreignPrim]
    rw [← List.reverse_append, List.take_append_drop]
  have e' : (l.flatMap fun v => (c.enc v).drop 8 ++ (c.enc v).take 8) = (l.flatMap fun v => [(c.enc v).drop 8, (c.enc v).take 8]).flatMap id := by
    rw [List.flatMap_assoc]
    congr 1
    funext v
    simp
  rw [e, e']
  refine walk_cells (fun v hv => ?_) _ le_rfl
  obtain ⟨u, _, hu⟩ := List.mem_flatMap.1 hv
  have h16 := c.enc_length u
  have hv8 : v.length = 8 := by
    simp only [List.mem_cons, List.not_mem_nil, or_false] at hu
    rcases hu with rfl | rfl
    · rw [List.length_drop]; omega
    · rw [List.length_take]; omega
  refine ⟨fun h => ?_, fun rest => swapHere_rev hv8 rest⟩
  have := congrArg List.length h
  rw [List.length_reverse, hv8] at this
  simp at this

/-- The value one as a `double`. -/
def oneDouble : { l : List Byte // l.length = 8 } := ⟨[0, 0, 0, 0, 0, 0, 0xF0, 0x3F], rfl⟩

/-- **C38.** A vector cell with `k` elements: only `k % 256` of them are converted, what follows is taken for further cells. -/
theorem vectorStep_long {T : Type} (c : Codec T) (hw : c.width ≠ 1) {v : List T} (h : v.length < 2 ^ 31) (rest : List Byte) :
    vectorStep c.width (foreignVector c v ++ rest) =
      .ok (intBytes v.length ++ (v.take (v.length % 256)).flatMap c.enc, (v.drop (v.length % 256)).flatMap (foreignPrim c) ++ rest) := by
  unfold vectorStep foreignVector count
  rw [List.append_assoc, swapHere_int, Outcome.ok_bind]
  have hb : ((intBytes (v.length : Int)).getD 0 0).toNat = v.length % 256 := by
    show (UInt8.ofNat (((v.length : Int) % 2 ^ 32).toNat % 256)).toNat = _
    rw [UInt8.toNat_ofNat']
    omega
  simp only [Outcome.ok_bind, hb, if_neg hw]
  have hlen : (v.take (v.length % 256)).length = v.length % 256 := by
    rw [List.length_take]; have := Nat.mod_le v.length 256; omega
  have := swapBuffer_prims c (v.take (v.length % 256)) ((v.drop (v.length % 256)).flatMap (foreignPrim c) ++ rest)
  rw [← List.append_assoc, ← List.flatMap_append, List.take_append_drop, hlen] at this
  rw [this]
  rfl

/-- The bytes of a normal end. -/
def result : Outcome (List Byte) → Option (List Byte)
  | .ok b => some b
  | _ => none

theorem returns_wrong {o : Outcome (List Byte)} {b : List Byte} (h : ((result o).any fun out => decide (out ≠ b)) = true) : ∃ out, o = .ok out ∧ out ≠ b := by
  cases o with
  | ok out => exact ⟨out, rfl, by simpa [result] using h⟩
  | ub => cases h
  | abort c => cases h

/-- **C38.** With 256 elements the conversion is wrong: 256 ones of type `double`. -/
theorem vector_256_wrong : ∃ out, swapData (gridName (ascii "vector:double")) (foreignVector (rawCodec 8) (List.replicate 256 oneDouble)) = .ok out ∧
    out ≠ (arrayCell (rawCodec 8)).enc (List.replicate 256 oneDouble) :=
  returns_wrong (by decide +kernel)

/-- **C38.** With alignment bytes in the entries the conversion is wrong: one entry of type `double`. -/
theorem sparse_padding_wrong : ∃ out, swapData (gridName (ascii "sparse:double"))
      (foreignSparse (rawCodec 8) [(⟨⟨1, by decide⟩, ⟨[0, 0, 0, 0], rfl⟩, oneDouble⟩ : RawItem _ 4)]) = .ok out ∧
    out ≠ (arrayCell (itemCodec (rawCodec 8) 4 ⟨[0, 0, 0, 0], rfl⟩)).enc [⟨⟨1, by decide⟩, ⟨[0, 0, 0, 0], rfl⟩, oneDouble⟩] :=
  returns_wrong (by decide +kernel)

end MMSP.WrongEndian
