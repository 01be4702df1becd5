import Verif.FileHeader
import Verif.FileIOMisread
/-!
# Property C17: the header; C15 for whole files
-/

namespace MMSP.FileIO

open MMSP.Decomp

/-! ## Numbers -/

theorem digit_byte {n : Nat} (h : n < 10) : (UInt8.ofNat (48 + n)).toNat = 48 + n := by
  rw [UInt8.toNat_ofNat']; omega

theorem natDec_digits (n : Nat) : ∀ b ∈ natDec n, isDigit b = true := by
  induction n using natDec.induct with
  | case1 n h =>
    rw [natDec, if_pos h]
    intro b hb
    obtain rfl := List.mem_singleton.mp hb
    simp only [isDigit, digit_byte h, Bool.and_eq_true, decide_eq_true_eq]
    omega
  | case2 n h ih =>
    rw [natDec, if_neg h]
    intro b hb
    rcases List.mem_append.mp hb with hb | hb
    · exact ih b hb
    · obtain rfl := List.mem_singleton.mp hb
      simp only [isDigit, digit_byte (Nat.mod_lt n (by decide)), Bool.and_eq_true, decide_eq_true_eq]
      omega

theorem natDec_ne (n : Nat) : natDec n ≠ [] := by
  rw [natDec]; split <;> simp

theorem digitsVal_natDec (n : Nat) : digitsVal (natDec n) = n := by
  induction n using natDec.induct with
  | case1 n h =>
    rw [natDec, if_pos h]
    simp only [digitsVal, List.foldl_cons, List.foldl_nil, digit_byte h]
    omega
  | case2 n h ih =>
    rw [natDec, if_neg h]
    unfold digitsVal at ih ⊢
    rw [List.foldl_append, ih]
    simp only [List.foldl_cons, List.foldl_nil, digit_byte (Nat.mod_lt n (by decide : 0 < 10))]
    omega

theorem takeWhile_append_stop {α : Type} {p : α → Bool} {l : List α} (hl : ∀ a ∈ l, p a = true) {b : α} (hb : p b = false)
    (t : List α) : (l ++ b :: t).takeWhile p = l ∧ (l ++ b :: t).dropWhile p = b :: t := by
  induction l with
  | nil => simp [hb]
  | cons a l ih =>
    have := ih (fun x hx => hl x (by simp [hx]))
    simp [hl a (by simp), this]

/-- Extracting a printed `int`, with any white space before and any non-digit after it, returns it and stops right after it. -/
theorem extractInt_intDec {n : Int} (hn : IsInt n) {ws : List Byte} (hws : ∀ b ∈ ws, isSpace b = true) {b : Byte}
    (hb : isDigit b = false) (rest : List Byte) :
    extractInt (ws ++ (intDec n ++ b :: rest)) = some (n, b :: rest) := by
  have hdig := natDec_digits n.natAbs
  obtain ⟨a, t, hat⟩ := List.exists_cons_of_ne_nil (natDec_ne n.natAbs)
  have ha : isDigit a = true := hdig a (by rw [hat]; simp)
  have ha' : 48 ≤ a.toNat ∧ a.toNat ≤ 57 := by simpa [isDigit] using ha
  have hskip : ∀ (c : Byte) (u : List Byte), isSpace c = false → (ws ++ c :: u).dropWhile isSpace = c :: u :=
    fun c u hc => (takeWhile_append_stop hws hc u).2
  obtain ⟨t1, t2⟩ := takeWhile_append_stop hdig hb rest
  have hv := digitsVal_natDec n.natAbs
  unfold extractInt intDec
  by_cases hneg : n < 0
  · rw [if_pos hneg, List.cons_append, hskip minus _ (by decide)]
    have hs : splitSign (minus :: (natDec n.natAbs ++ b :: rest)) = (true, natDec n.natAbs ++ b :: rest) := by
      unfold splitSign; exact if_pos rfl
    simp only [hs, t1, t2, hv, if_true]
    rw [if_neg]
    · have : -((n.natAbs : Nat) : Int) = n := by omega
      rw [this]
    · rintro (h | h)
      · exact natDec_ne _ h
      · apply h
        have := hn.1; have := hn.2
        omega
  · rw [if_neg hneg]
    have hns : isSpace a = false := by
      simp only [isSpace, Bool.or_eq_false_iff, beq_eq_false_iff_ne, ne_eq, Bool.and_eq_false_iff, decide_eq_false_iff_not]
      omega
    have e : (ws ++ (natDec n.natAbs ++ b :: rest)).dropWhile isSpace = natDec n.natAbs ++ b :: rest := by
      rw [hat, List.cons_append]; exact hskip a _ hns
    have hs : splitSign (natDec n.natAbs ++ b :: rest) = (false, natDec n.natAbs ++ b :: rest) := by
      rw [hat, List.cons_append]
      have h1 : a ≠ minus := by rintro rfl; revert ha'; decide
      have h2 : a.toNat ≠ 43 := by omega
      simp only [splitSign, if_neg h1, if_neg h2]
    simp only [e, hs, t1, t2, hv]
    rw [if_neg]
    · have : ((n.natAbs : Nat) : Int) = n := by omega
      simp [this]
    · rintro (h | h)
      · exact natDec_ne _ h
      · apply h
        have := hn.1; have := hn.2
        simp only [Bool.false_eq_true, if_false]
        omega

theorem getline_append {nm : List Byte} (h : newline ∉ nm) (rest : List Byte) :
    getline (nm ++ newline :: rest) = (nm, rest) := by
  have := takeWhile_append_stop (p := fun b => decide (b ≠ newline)) (l := nm)
    (by intro a ha; simp only [ne_eq, decide_eq_true_eq]; rintro rfl; exact h ha) (b := newline) (by decide) rest
  unfold getline
  rw [this.1, this.2]
  rfl

theorem extractPairs_header {d : Nat} {l : List (Int × Int)} (hl : l.length = d) (h : ∀ p ∈ l, IsInt p.1 ∧ IsInt p.2)
    (rest : List Byte) :
    extractPairs d (newline :: ((l.flatMap fun p => intDec p.1 ++ blank :: (intDec p.2 ++ [newline])) ++ rest)) =
      .ok (l, newline :: rest) := by
  induction l generalizing d with
  | nil => subst hl; rfl
  | cons p l ih =>
    subst hl
    have hp := h p (by simp)
    have e1 := extractInt_intDec hp.1 (ws := [newline]) (by decide) (b := blank) (by decide)
    have e2 := extractInt_intDec hp.2 (ws := [blank]) (by decide) (b := newline) (by decide)
    simp only [List.singleton_append] at e1 e2
    simp only [List.length_cons, extractPairs, List.flatMap_cons, List.append_assoc, List.cons_append, e1, orUb,
      Outcome.ok_bind, e2, List.nil_append]
    rw [ih rfl (fun q hq => h q (by simp [hq]))]
    rfl

theorem extractReals_header {D : Type} (dec : Decimal D) (l : List D) (rest : List Byte) :
    extractReals dec l.length (newline :: ((l.flatMap fun v => dec.put v ++ [newline]) ++ rest)) =
      .ok (l.map dec.round6, newline :: rest) := by
  induction l with
  | nil => rfl
  | cons v l ih =>
    simp only [List.length_cons, extractReals, List.flatMap_cons, List.append_assoc, List.cons_append, List.nil_append,
      dec.get_put, orUb, Outcome.ok_bind, ih, List.map_cons]

/-! ## Type check -/

/-- The name of a grid type: `"grid:"` and the name of its cell type (`include/MMSP.grid.h` 593-596). -/
def gridName (t : List Byte) : List Byte := ascii "grid:" ++ t

theorem findLastColon_gridName {t : List Byte} (ht : colon ∉ t.take 4) : findLastColon (gridName t) = some 4 := by
  have hi : ∀ i, i < 4 → t[i]? ≠ some colon := by
    intro i hi h
    apply ht
    rw [List.mem_iff_getElem?]
    exact ⟨i, by rw [List.getElem?_take_of_lt hi]; exact h⟩
  have e : ∀ i, (gridName t)[i + 5]? = t[i]? := by
    intro i
    unfold gridName
    rw [List.getElem?_append_right (by simp [ascii])]
    simp [ascii]
  have e5 := e 0
  have e6 := e 1
  have e7 := e 2
  have e8 := e 3
  have h0 := hi 0 (by decide)
  have h1 := hi 1 (by decide)
  have h2 := hi 2 (by decide)
  have h3 := hi 3 (by decide)
  simp only [zero_add, Nat.reduceAdd] at e5 e6 e7 e8
  unfold findLastColon
  have hr : List.range 9 = [0, 1, 2, 3, 4, 5, 6, 7, 8] := rfl
  have f0 : ((gridName t)[0]? == some colon) = false := rfl
  have f1 : ((gridName t)[1]? == some colon) = false := rfl
  have f2 : ((gridName t)[2]? == some colon) = false := rfl
  have f3 : ((gridName t)[3]? == some colon) = false := rfl
  have f4 : ((gridName t)[4]? == some colon) = true := rfl
  have f5 : ((gridName t)[5]? == some colon) = false := by rw [e5]; simpa using h0
  have f6 : ((gridName t)[6]? == some colon) = false := by rw [e6]; simpa using h1
  have f7 : ((gridName t)[7]? == some colon) = false := by rw [e7]; simpa using h2
  have f8 : ((gridName t)[8]? == some colon) = false := by rw [e8]; simpa using h3
  rw [hr]
  simp only [List.filter_cons, f0, f1, f2, f3, f4, f5, f6, f7, f8, Bool.false_eq_true, if_false, if_true, List.filter_nil]
  rfl

/-- C17: which files a grid accepts. A grid with cells of type `u` reads a file with cells of type `t` exactly if `u` is `t` or
`u` is `scalar:t`; every other file ends the program with code -2. (`t` has no colon among its first four characters, which
holds for all cell type names of the library.) -/
theorem checkType_iff {t u : List Byte} (ht : colon ∉ t.take 4) :
    checkType (gridName u) (gridName t) = if u = t ∨ u = ascii "scalar:" ++ t then .ok () else .abort (-2) := by
  unfold checkType
  rw [findLastColon_gridName ht]
  have e : ascii "grid:scalar" ++ (gridName t).drop 4 = gridName (ascii "scalar:" ++ t) := by
    unfold gridName
    rw [List.drop_append_of_le_length (by decide)]
    simp only [← List.append_assoc]
    rfl
  have inj : ∀ a b : List Byte, gridName a = gridName b ↔ a = b := by
    intro a b; unfold gridName; exact List.append_right_inj _
  simp only [e, inj, ne_eq]
  by_cases h1 : u = t
  · subst h1; simp
  · have h1' : ¬ t = u := fun h => h1 h.symm
    by_cases h2 : u = ascii "scalar:" ++ t
    · subst h2
      have : ¬ t = ascii "scalar:" ++ t := fun h => by
        have := congrArg List.length h
        rw [List.length_append] at this
        have h7 : (ascii "scalar:").length = 7 := rfl
        omega
      simp [this]
    · have h2' : ¬ ascii "scalar:" ++ t = u := fun h => h2 h.symm
      have h3 : ¬ (¬ t = u ∧ ascii "scalar:" ++ t = u) := fun h => h2' h.2
      have h4 : ¬ (u = t ∨ u = ascii "scalar:" ++ t) := by rintro (h | h); exacts [h1 h, h2 h]
      have h5 : ¬ gridName t = gridName u := by rw [inj]; exact h1'
      simp only [if_neg h3, if_neg h4, if_pos h5]

/-- C17: the two forms are not interchangeable: a file of `scalar<T>` cells is rejected by a grid of plain `T` cells. -/
theorem scalar_file_rejected (t : List Byte) : checkType (gridName t) (gridName (ascii "scalar:" ++ t)) = .abort (-2) := by
  rw [checkType_iff]
  · apply if_neg
    rintro (h | h) <;>
    · have := congrArg List.length h
      simp [ascii] at this
      try omega
  · have : (ascii "scalar:" ++ t).take 4 = ascii "scal" := by
      rw [List.take_append_of_le_length (by decide)]; rfl
    rw [this]; decide

/-- A first line without a colon in its first nine characters kills the program with an uncaught exception. -/
theorem no_colon_throws (mine : List Byte) {line : List Byte} (h : colon ∉ line.take 9) : checkType mine line = .abort 134 := by
  unfold checkType
  have : findLastColon line = none := by
    unfold findLastColon
    rw [List.getLast?_eq_none_iff, List.filter_eq_nil_iff]
    intro i hi hc
    have hi' := List.mem_range.mp hi
    apply h
    rw [List.mem_iff_getElem?]
    exact ⟨i, by rw [List.getElem?_take_of_lt hi']; simpa using hc⟩
  rw [this]

example : colon ∉ (ascii "double").take 4 ∧ colon ∉ (ascii "vector:int").take 4 ∧
    checkType (gridName (ascii "scalar:float")) (gridName (ascii "float")) = .ok () ∧
    checkType (gridName (ascii "float")) (gridName (ascii "double")) = .abort (-2) := by decide

/-! ## Whole header -/

/-- C17: the header written for a grid is read back by every grid that accepts its type, with equal field count and limits and
with the spacings as printed, and the stream is left at the byte after the header, whatever follows. -/
theorem header_roundTrip {D : Type} (dec : Decimal D) {nm mine : List Byte} (hnm : newline ∉ nm)
    (hacc : checkType mine nm = .ok ()) {d : Nat} (hdi : IsInt d) {fields : Int} (hf : IsInt fields)
    {g0 g1 : Nat → Int} (hint : ∀ j, j < d → IsInt (g0 j) ∧ IsInt (g1 j)) (dx : Nat → D) (rest : List Byte) :
    inputHeader dec mine d (header dec nm d fields g0 g1 dx ++ rest) =
      .ok (⟨fields, (List.range d).map fun j => (g0 j, g1 j), (List.range d).map fun j => dec.round6 (dx j)⟩, rest) := by
  unfold inputHeader header
  simp only [List.append_assoc, List.cons_append]
  rw [getline_append hnm]
  have e1 := extractInt_intDec hdi (ws := []) (by decide) (b := newline) (by decide)
  have e2 := extractInt_intDec hf (ws := [newline]) (by decide) (b := newline) (by decide)
  simp only [List.singleton_append, List.nil_append] at e1 e2
  have e3 := extractPairs_header (d := d) (l := (List.range d).map fun j => (g0 j, g1 j)) (by simp) (by
    intro p hp
    obtain ⟨j, hj, rfl⟩ := List.mem_map.mp hp
    exact hint j (List.mem_range.mp hj))
  simp only [List.flatMap_map] at e3
  have e4 := extractReals_header dec ((List.range d).map dx) rest
  simp only [List.flatMap_map, List.length_map, List.length_range, List.map_map] at e4
  simp only [hacc, Outcome.ok_bind, e1, ne_eq, not_true_eq_false, if_false, e2, orUb, e3, e4]
  rfl

/-- C17: a file of another type is rejected with -2 before anything after its first line is looked at. -/
theorem wrong_type_rejected {D : Type} (dec : Decimal D) {t u : List Byte} (ht : colon ∉ t.take 4) (hnl : newline ∉ t)
    (h1 : u ≠ t) (h2 : u ≠ ascii "scalar:" ++ t) (d : Nat) (rest : List Byte) :
    inputHeader dec (gridName u) d (gridName t ++ newline :: rest) = .abort (-2) := by
  unfold inputHeader
  rw [getline_append]
  · simp only
    rw [checkType_iff ht, if_neg (by rintro (h | h); exacts [h1 h, h2 h])]
    rfl
  · intro h
    rcases List.mem_append.mp h with h | h
    · revert h; decide
    · exact hnl h

/-- C17: a file of the right type and another dimension is rejected with -3. -/
theorem wrong_dimension_rejected {D : Type} (dec : Decimal D) {nm mine : List Byte} (hnm : newline ∉ nm)
    (hacc : checkType mine nm = .ok ()) {d d' : Nat} (hdi : IsInt d') (hne : d' ≠ d) (rest : List Byte) :
    inputHeader dec mine d (nm ++ newline :: (intDec d' ++ newline :: rest)) = .abort (-3) := by
  unfold inputHeader
  rw [getline_append hnm]
  have e1 := extractInt_intDec hdi (ws := []) (by decide) (b := newline) (by decide) rest
  simp only [List.nil_append] at e1
  have : (d' : Int) ≠ d := by exact_mod_cast hne
  simp only [hacc, Outcome.ok_bind, e1, ne_eq, this, not_false_eq_true, if_true]

/-! ## Whole files -/

theorem Run.congr {T : Type} {c : Cell T} {d : Nat} {g0 g1 g0' g1' : Nat → Int} {B0 B1 : Nat → BC} {F : (Nat → Int) → T}
    {ws : List (Reader T)} (h : Run c d g0 g1 B0 B1 F ws) (e : ∀ j, j < d → g0' j = g0 j ∧ g1' j = g1 j) :
    Run c d g0' g1' B0 B1 F ws where
  count := h.count
  part := by
    intro w hw
    have p := h.part w hw
    refine ⟨p.dim, p.ghosts, ?_, ?_, ?_⟩
    · intro j hj; rw [(e j hj).1, (e j hj).2]; exact p.inside j hj
    · intro j hj; rw [(e j hj).1]; exact p.lower j hj
    · intro j hj; rw [(e j hj).2]; exact p.upper j hj
  cover := by
    intro x hx
    apply h.cover x
    intro j hj
    have := hx j hj
    rw [(e j hj).1, (e j hj).2] at this
    exact this
  value := h.value
  valid := h.valid
  small := h.small

theorem choose_congr {np d : Nat} {g0 g1 g0' g1' : Nat → Int} (e : ∀ j, j < d → g0' j = g0 j ∧ g1' j = g1 j) :
    choose np d g0' g1' = choose np d g0 g1 := by
  have : area d g0' g1' = area d g0 g1 := by
    funext i
    unfold area
    apply Finset.prod_congr rfl
    intro j hj
    have hj' := Finset.mem_range.mp (Finset.mem_filter.mp hj).1
    rw [(e j hj').1, (e j hj').2]
  unfold choose
  rw [this]

theorem setupShape_congr {bd : Build} {np d : Nat} {g0 g1 g0' g1' : Nat → Int} (e : ∀ j, j < d → g0' j = g0 j ∧ g1' j = g1 j)
    (ghosts : Int) (rank : Int) {j : Nat} (hj : j < d) :
    (setupShape bd d g0' g1' ghosts np rank).x0 j = (setupShape bd d g0 g1 ghosts np rank).x0 j ∧
    (setupShape bd d g0' g1' ghosts np rank).x1 j = (setupShape bd d g0 g1 ghosts np rank).x1 j := by
  cases bd with
  | serial => exact e j hj
  | mpi =>
    simp only [setupShape, localShape, rankShape, choose_congr e, (e j hj).1, (e j hj).2, and_self]

theorem setupShape_part {bd : Build} {np d : Nat} {g0 g1 : Nat → Int} (hnp : 0 < np) (hd : 0 < d)
    (hg : ∀ j, j < d → g0 j ≤ g1 j) {ghosts : Int} (hgh : 0 ≤ ghosts) {r : Int} (h0 : 0 ≤ r) (h1 : r < np) :
    PartOf d g0 g1 (fun _ => .periodic) (fun _ => .periodic) (setupShape bd d g0 g1 ghosts np r) := by
  cases bd with
  | serial => exact serialShape_part hg _ _
  | mpi => exact localShape_part hnp hd hg hgh h0 h1

/-- C15 and C17 together: a file written by any run (serial, or any number of ranks in any decomposition) and read by any run
that accepts its type (serial, or any rank of any number of ranks, any ghost width) gives the reader the written field count
and limits, the printed spacings, the box `setup()` computes for it, the written value at every node of that box, the written
boundary conditions on outer faces and `parallel` on the others. -/
theorem output_input {T D : Type} {c : Cell T} (hc : RoundTrips c) {comp : Option Zlib} (hz : Lawful comp) (fresh : Int → T)
    (dec : Decimal D) (dx0 : D) {d : Nat} (hd : 0 < d) (hdi : IsInt d) {fields : Int} (hf : IsInt fields)
    {g0 g1 : Nat → Int} (hg : ∀ j, j < d → g0 j ≤ g1 j) (hint : ∀ j, j < d → IsInt (g0 j) ∧ IsInt (g1 j)) (dx : Nat → D)
    {nm mine : List Byte} (hnm : newline ∉ nm) (hacc : checkType mine nm = .ok ())
    {B0 B1 : Nat → BC} {F : (Nat → Int) → T} {ws : List (Reader T)} (hrun : Run c d g0 g1 B0 B1 F ws)
    (hshrink : ∀ w ∈ ws, Shrinks comp c w)
    (bd : Build) {np : Nat} {rank : Int} (h0 : 0 ≤ rank) (h1 : rank < np) {ghosts : Int} (hgh : 0 ≤ ghosts) :
    ∃ file obj, outputBytes comp c dec nm d fields g0 g1 dx ws = .ok file ∧
      input comp c fresh dec dx0 bd mine d ghosts np rank file = .ok obj ∧
      obj.fields = fields ∧
      (∀ j, j < d → obj.g0 j = g0 j ∧ obj.g1 j = g1 j ∧ obj.dx j = dec.round6 (dx j)) ∧
      (∀ j, j < d → obj.local_.shape.x0 j = (setupShape bd d g0 g1 ghosts np rank).x0 j ∧
        obj.local_.shape.x1 j = (setupShape bd d g0 g1 ghosts np rank).x1 j) ∧
      (∀ x, obj.local_.shape.IsNode x → cellAt obj.local_.shape obj.local_.data x = F x) ∧
      ((∃ x, obj.local_.shape.IsNode x) → PartOf d g0 g1 B0 B1 obj.local_.shape) := by
  have hl : ∀ j, j < d → (((List.range d).map fun j => (g0 j, g1 j)).getD j (0, 0)).1 = g0 j ∧
      (((List.range d).map fun j => (g0 j, g1 j)).getD j (0, 0)).2 = g1 j := by
    intro j hj; rw [getD_range hj]; exact ⟨rfl, rfl⟩
  let g0' : Nat → Int := fun j => (((List.range d).map fun j => (g0 j, g1 j)).getD j (0, 0)).1
  let g1' : Nat → Int := fun j => (((List.range d).map fun j => (g0 j, g1 j)).getD j (0, 0)).2
  have hl' : ∀ j, j < d → g0' j = g0 j ∧ g1' j = g1 j := hl
  have hnp : 0 < np := by omega
  have hpart : PartOf d g0' g1' (fun _ => .periodic) (fun _ => .periodic) (setupShape bd d g0' g1' ghosts np rank) :=
    setupShape_part hnp hd (fun j hj => by rw [(hl' j hj).1, (hl' j hj).2]; exact hg j hj) hgh h0 h1
  obtain ⟨b, r', e1, e2, e3, e4, _, e6⟩ := restart hc hz (fresh fields) hd (g0 := g0') (g1 := g1')
    (fun j hj => by rw [(hl' j hj).1, (hl' j hj).2]; exact hint j hj) (hrun.congr hl) hshrink
    (r := ⟨setupShape bd d g0' g1' ghosts np rank, fun _ => fresh fields⟩) hpart []
  rw [List.append_nil] at e2
  refine ⟨header dec nm d fields g0 g1 dx ++ b,
    ⟨fields, g0', g1', fun j => ((List.range d).map fun j => dec.round6 (dx j)).getD j dx0, r'⟩, ?_, ?_, rfl, ?_, ?_, ?_, ?_⟩
  · simp only [outputBytes, e1, Outcome.ok_bind]
  · have e2' : read comp c (fresh fields) ⟨setupShape bd d
        (fun j => (((List.range d).map fun j => (g0 j, g1 j)).getD j (0, 0)).1)
        (fun j => (((List.range d).map fun j => (g0 j, g1 j)).getD j (0, 0)).2) ghosts np rank, fun _ => fresh fields⟩ b =
      .ok (r', []) := e2
    unfold input
    rw [header_roundTrip dec hnm hacc hdi hf hint dx b]
    simp only [Outcome.ok_bind, e2']
    rfl
  · intro j hj
    refine ⟨(hl j hj).1, (hl j hj).2, ?_⟩
    simp [List.getD_eq_getElem?_getD, hj]
  · intro j hj
    have := setupShape_congr (bd := bd) (np := np) hl ghosts rank hj
    rw [e3.2.1, e3.2.2.1]
    exact this
  · intro x hx
    exact e4 x ((e3.node x).mp hx)
  · rintro ⟨x, hx⟩
    have p := e6 ⟨x, (e3.node x).mp hx⟩
    refine ⟨p.dim, p.ghosts, ?_, ?_, ?_⟩
    · intro j hj; rw [← (hl' j hj).1, ← (hl' j hj).2]; exact p.inside j hj
    · intro j hj; rw [← (hl' j hj).1]; exact p.lower j hj
    · intro j hj; rw [← (hl' j hj).2]; exact p.upper j hj

/-! ## Instances -/

/-- Spacings that are whole numbers. -/
def wholeDecimal : Decimal { n : Int // -2 ^ 31 ≤ n ∧ n < 2 ^ 31 } where
  put := fun v => intDec v.1
  get := fun s => match extractInt s with
    | some (v, rest) => if h : -2 ^ 31 ≤ v ∧ v < 2 ^ 31 then some (⟨v, h⟩, rest) else none
    | none => none
  round6 := id
  get_put := by
    intro v rest
    have := extractInt_intDec (n := v.1) v.2 (ws := [newline]) (by decide) (b := newline) (by decide) rest
    simp only [List.singleton_append] at this
    simp only [this, dif_pos v.2]
    rfl

/-- The hypotheses of `header_roundTrip` and `output_input` hold together: seven nodes with a mirror and a Neumann face, written
by the serial program with a `float`-like type name and read by rank 2 of 3 into a `scalar` grid. -/
example (data : Int → Byte) : ∃ file obj,
    outputBytes (some growZ) (primCell byteCodec) wholeDecimal (gridName (ascii "char")) 1 1 (fun _ => -3) (fun _ => 4)
      (fun _ => ⟨2, by decide⟩) [⟨serialShape 1 (fun _ => -3) (fun _ => 4) (fun _ => .mirror) (fun _ => .neumann), data⟩] = .ok file ∧
    input (some growZ) (primCell byteCodec) (fun _ => 0) wholeDecimal ⟨0, by decide⟩ .mpi (gridName (ascii "scalar:char")) 1 2 3 2
      file = .ok obj ∧ obj.fields = 1 := by
  have e : bufferSize (primCell byteCodec) (serialShape 1 (fun _ => -3) (fun _ => 4) (fun _ => .mirror) (fun _ => .neumann)) 1
    (fun _ => -3) (fun _ => 4) data = .ok 7 := rfl
  obtain ⟨file, obj, h1, h2, h3, _⟩ := output_input (primCell_roundTrips byteCodec) (comp := some growZ)
    (by rintro z ⟨⟩; exact growZ_lawful) (fun _ => 0) wholeDecimal ⟨0, by decide⟩ (d := 1) (by decide)
    ⟨by decide, by decide⟩ (fields := 1) ⟨by decide, by decide⟩ (g0 := fun _ => -3) (g1 := fun _ => 4)
    (fun _ _ => by decide) (fun _ _ => ⟨⟨by decide, by decide⟩, ⟨by decide, by decide⟩⟩) (fun _ => ⟨2, by decide⟩)
    (nm := gridName (ascii "char")) (mine := gridName (ascii "scalar:char")) (by decide) (by decide)
    (serial_run (fun _ _ => by decide) (fun _ => .mirror) (fun _ => .neumann) (data := data) (fun _ _ _ => trivial) (by
      intro n hn
      have : 7 = n := Outcome.ok.inj (e.symm.trans hn)
      omega))
    (by rintro w _ z raw ⟨⟩ _ h; simp [growZ] at h) .mpi (np := 3) (rank := 2) (by decide) (by decide) (ghosts := 2) (by decide)
  exact ⟨file, obj, h1, h2, h3⟩

end MMSP.FileIO
