import Verif.BufferProps
/-!
# Property C133: cells written to and read from a file

Model of the file functions of primitive cells (`include/MMSP.utility.h` 155-161), `scalar`
(`include/MMSP.scalar.h` 67-73), `vector` (`include/MMSP.vector.cpp` 119-128) and `sparse`
(`include/MMSP.sparse.cpp` 163-179).

Simplifications: writing never fails. The object representation of an entry is a `Codec` (`Verif/Buffer.lean`). `new`
succeeds for every size that is not negative; the bytes of the new array are `junk`, which can be anything.
-/

namespace MMSP.CellFiles

open MMSP

/-! ## Model -/

/-- A `std::ifstream`: the bytes not yet read, and whether `failbit` is set. -/
structure In where
  bytes : List Byte
  failed : Bool

/-- `std::istream::read(dst, n)`: the bytes stored to `dst` and the stream afterwards. A failed stream stores nothing. A
stream with fewer than `n` bytes stores those and fails. -/
def In.read (s : In) (n : Nat) : List Byte × In :=
  if s.failed then ([], s)
  else if n ≤ s.bytes.length then (s.bytes.take n, ⟨s.bytes.drop n, false⟩)
  else (s.bytes, ⟨[], true⟩)

/-- Memory with the bytes `old` after `got` was stored at its beginning. -/
def over (old got : List Byte) : List Byte := got ++ old.drop got.length

/-- `write` of a primitive (`include/MMSP.utility.h` 159-161) and of a `scalar` (`include/MMSP.scalar.h` 68-70). -/
def writePrim {T : Type} (c : Codec T) (v : T) : List Byte := c.enc v

/-- `read` of a primitive (`include/MMSP.utility.h` 156-158) and of a `scalar` (`include/MMSP.scalar.h` 71-73) into a variable
with the value `v`. -/
def readPrim {T : Type} (c : Codec T) (v : T) (s : In) : T × In :=
  let r := s.read c.width
  (c.dec (over (c.enc v) r.1), r.2)

/-- `vector::write` (`include/MMSP.vector.cpp` 120-123): the entries; their number is not written. -/
def writeVector {T : Type} (c : Codec T) (v : List T) : List Byte := v.flatMap c.enc

/-- `vector::read` (`include/MMSP.vector.cpp` 125-128) into the vector `v`, whose length stays. -/
def readVector {T : Type} (c : Codec T) (v : List T) (s : In) : List T × In :=
  let r := s.read (v.length * c.width)
  (decArray c v.length (over (v.flatMap c.enc) r.1), r.2)

/-- `sparse::write` (`include/MMSP.sparse.cpp` 164-168): the number of items, then the items. -/
def writeSparse {T : Type} (c : Codec T) (v : List T) : List Byte := intBytes v.length ++ v.flatMap c.enc

/-- `sparse::read` (`include/MMSP.sparse.cpp` 170-179) into the value `v`. `junk n` are the `n` bytes of the new array. A
negative size makes `new` throw. -/
def readSparse {T : Type} (c : Codec T) (junk : Nat → List Byte) (v : List T) (s : In) : Outcome (List T × In) :=
  let r := s.read 4
  (readInt (over (intBytes v.length) r.1)).bind fun n =>
    if n < 0 then .abort 134
    else
      let d := r.2.read (n.toNat * c.width)
      .ok (decArray c n.toNat (over (junk (n.toNat * c.width)) d.1), d.2)

/-- Cells read one after another, the `k`th into the `k`th of the given cells. -/
def readAll {C : Type} (read1 : C → In → Outcome (C × In)) : List C → In → Outcome (List C × In)
  | [], s => .ok ([], s)
  | v :: vs, s => (read1 v s).bind fun r => (readAll read1 vs r.2).bind fun q => .ok (r.1 :: q.1, q.2)

/-! ## Lemmas -/

private theorem read_exact (a rest : List Byte) : In.read ⟨a ++ rest, false⟩ a.length = (a, ⟨rest, false⟩) := by
  simp [In.read]

private theorem over_full {old got : List Byte} (h : old.length ≤ got.length) : over old got = got := by
  simp [over, List.drop_eq_nil_of_le h]

private theorem decArray_enc' {T : Type} (c : Codec T) (v : List T) : decArray c v.length (v.flatMap c.enc) = v := by
  have := decArray_enc c v []
  rwa [List.append_nil] at this

private theorem prim_one {T : Type} (c : Codec T) (t v : T) (rest : List Byte) :
    readPrim c t ⟨c.enc v ++ rest, false⟩ = (v, ⟨rest, false⟩) := by
  have h := read_exact (c.enc v) rest
  rw [c.enc_length] at h
  simp only [readPrim, h]
  rw [over_full (by rw [c.enc_length, c.enc_length]), c.dec_enc]

private theorem vector_one {T : Type} (c : Codec T) (t v : List T) (hl : t.length = v.length) (rest : List Byte) :
    readVector c t ⟨v.flatMap c.enc ++ rest, false⟩ = (v, ⟨rest, false⟩) := by
  have h := read_exact (v.flatMap c.enc) rest
  rw [flatMap_enc_length] at h
  simp only [readVector, hl, h]
  rw [over_full (by rw [flatMap_enc_length, flatMap_enc_length, hl]), decArray_enc']

private theorem sparse_one {T : Type} (c : Codec T) (junk : Nat → List Byte) (hj : ∀ n, (junk n).length = n) (t v : List T)
    (hv : v.length < 2 ^ 31) (rest : List Byte) :
    readSparse c junk t ⟨writeSparse c v ++ rest, false⟩ = .ok (v, ⟨rest, false⟩) := by
  have h4 := read_exact (intBytes v.length) (v.flatMap c.enc ++ rest)
  rw [intBytes_length] at h4
  have hd := read_exact (v.flatMap c.enc) rest
  rw [flatMap_enc_length] at hd
  simp only [readSparse, writeSparse, List.append_assoc, h4]
  rw [over_full (by simp)]
  have hi := readInt_intBytes (n := (v.length : Int)) (by omega) (by omega) []
  rw [List.append_nil] at hi
  rw [hi]
  simp only [Outcome.ok_bind]
  rw [if_neg (by omega)]
  simp only [Int.toNat_natCast, hd]
  rw [over_full (by rw [hj, flatMap_enc_length]), decArray_enc']

private theorem vector_bytes {T : Type} (c : Codec T) (vs : List (List T)) :
    vs.flatMap (writeVector c) = vs.flatten.flatMap c.enc := by
  induction vs with
  | nil => rfl
  | cons v vs ih => rw [List.flatMap_cons, List.flatten_cons, List.flatMap_append, ih, writeVector]

/-! ## Theorems -/

/-- What a user of `write` and `read` relies on: cells written one after another are read back by reading into the given
cells one after another, and the stream then stands behind them. -/
def Restores {C : Type} (write1 : C → List Byte) (read1 : C → In → Outcome (C × In)) (into vs : List C) : Prop :=
  ∀ rest, readAll read1 into ⟨vs.flatMap write1 ++ rest, false⟩ = .ok (vs, ⟨rest, false⟩)

private theorem restores_of {C : Type} {write1 : C → List Byte} {read1 : C → In → Outcome (C × In)} {into vs : List C}
    (h : List.Forall₂ (fun t v => ∀ rest, read1 t ⟨write1 v ++ rest, false⟩ = .ok (v, ⟨rest, false⟩)) into vs) :
    Restores write1 read1 into vs := by
  induction h with
  | nil => intro rest; simp [readAll]
  | cons h1 _ ih =>
    intro rest
    simp only [readAll, List.flatMap_cons, List.append_assoc]
    rw [h1]
    simp only [Outcome.ok_bind]
    rw [ih rest]
    simp only [Outcome.ok_bind]

private theorem forall₂_of {C D : Type} {R : C → D → Prop} : ∀ {a : List C} {b : List D}, a.length = b.length →
    (∀ p ∈ a.zip b, R p.1 p.2) → List.Forall₂ R a b
  | [], [], _, _ => .nil
  | x :: a, y :: b, h, hr => .cons (hr (x, y) (by simp))
      (forall₂_of (by simpa using h) (fun p hp => hr p (by simp [hp])))

/-- C133: primitive cells and `scalar` cells are restored, whatever the cells read into hold. -/
theorem prims_restored {T : Type} (c : Codec T) (into vs : List T) (hl : into.length = vs.length) :
    Restores (writePrim c) (fun t s => .ok (readPrim c t s)) into vs :=
  restores_of (forall₂_of hl fun _ _ rest => by rw [writePrim, prim_one])

/-- C133: `sparse` cells are restored, whatever the cells read into hold. -/
theorem sparses_restored {T : Type} (c : Codec T) (junk : Nat → List Byte) (hj : ∀ n, (junk n).length = n)
    (into vs : List (List T)) (hl : into.length = vs.length) (hv : ∀ v ∈ vs, v.length < 2 ^ 31) :
    Restores (writeSparse c) (readSparse c junk) into vs :=
  restores_of (forall₂_of hl fun _ hp rest =>
    sparse_one c junk hj _ _ (hv _ (List.of_mem_zip hp).2) rest)

/-- C133: `vector` cells are restored if and only if the cells read into have the lengths of the cells written. -/
theorem vectors_restored_iff {T : Type} (c : Codec T) (into vs : List (List T)) :
    Restores (writeVector c) (fun t s => .ok (readVector c t s)) into vs ↔
      into.map List.length = vs.map List.length := by
  constructor
  · intro h
    have hlen : ∀ (into : List (List T)) (s : In) (r : List (List T) × In),
        readAll (fun t s => .ok (readVector c t s)) into s = .ok r → r.1.map List.length = into.map List.length := by
      intro into
      induction into with
      | nil => intro s r hr; simp only [readAll, Outcome.ok.injEq] at hr; subst hr; rfl
      | cons t into ih =>
        intro s r hr
        simp only [readAll, Outcome.ok_bind] at hr
        cases hq : readAll (fun t s => .ok (readVector c t s)) into (readVector c t s).2 with
        | ok q =>
          rw [hq] at hr
          simp only [Outcome.ok_bind, Outcome.ok.injEq] at hr
          subst hr
          have hd : ∀ n b, (decArray c n b).length = n := by
            intro n; induction n with
            | zero => intro b; rfl
            | succ n ihn => intro b; simp [decArray, ihn]
          simp [ih _ _ hq, readVector, hd]
        | ub => rw [hq] at hr; cases hr
        | abort z => rw [hq] at hr; cases hr
    exact (hlen _ _ _ (h [])).symm
  · intro h
    have hl : into.length = vs.length := by simpa using congrArg List.length h
    refine restores_of (forall₂_of hl fun p hp rest => ?_)
    rw [writeVector, vector_one]
    obtain ⟨k, hk, rfl⟩ := List.mem_iff_getElem.mp hp
    rw [List.length_zip] at hk
    have := congrArg (fun l => l[k]?) h
    have h1 : k < into.length := by omega
    have h2 : k < vs.length := by omega
    simpa [h1, h2] using this

/-- C133: what `vector` cells of any lengths receive: the entries written, as one sequence, cut at the lengths of the cells
read into. -/
theorem vector_cut {T : Type} (c : Codec T) (vs : List (List T)) (t : List T) (rest : List Byte)
    (h : t.length ≤ vs.flatten.length) :
    readVector c t ⟨vs.flatMap (writeVector c) ++ rest, false⟩ =
      (vs.flatten.take t.length, ⟨(vs.flatten.drop t.length).flatMap c.enc ++ rest, false⟩) := by
  rw [vector_bytes]
  generalize vs.flatten = w at h ⊢
  conv_lhs => rw [← List.take_append_drop t.length w, List.flatMap_append, List.append_assoc]
  rw [vector_one]
  simp [h]

/-- C133: a file of `vector` cells does not say how long they were: different cells give the same file as soon as their
entries are the same as one sequence, so no reader can restore the lengths. -/
theorem vector_file_ambiguous {T : Type} (c : Codec T) (vs ws : List (List T)) (h : vs.flatten = ws.flatten) :
    vs.flatMap (writeVector c) = ws.flatMap (writeVector c) := by
  rw [vector_bytes, vector_bytes, h]

/-- C133: different `sparse` cells give different files, even with anything behind them. -/
theorem sparse_file_unambiguous {T : Type} (c : Codec T) (v w : List T) (hv : v.length < 2 ^ 31) (hw : w.length < 2 ^ 31)
    (r1 r2 : List Byte) (h : writeSparse c v ++ r1 = writeSparse c w ++ r2) : v = w ∧ r1 = r2 := by
  have h1 := sparse_one c (fun n => List.replicate n 0) (by simp) [] v hv r1
  have h2 := sparse_one c (fun n => List.replicate n 0) (by simp) [] w hw r2
  rw [h, h2] at h1
  simp only [Outcome.ok.injEq, Prod.mk.injEq, In.mk.injEq, and_true] at h1
  exact ⟨h1.1.symm, h1.2.symm⟩

/-- C133: with nothing left to read, primitive and `vector` cells keep their values. A `sparse` cell does not: it keeps
its number of items, but the items are replaced by whatever the new memory holds. -/
theorem nothing_left {T : Type} (c : Codec T) (junk : Nat → List Byte) (t : T) (v : List T) (hv : v.length < 2 ^ 31)
    (s : In) (hs : s.failed = true ∨ s.bytes = []) :
    (readPrim c t s).1 = t ∧ (readVector c v s).1 = v ∧
      ∃ s', readSparse c junk v s = .ok (decArray c v.length (junk (v.length * c.width)), s') := by
  have hr : ∀ n, (s.read n).1 = [] ∧ ((s.read n).2.failed = true ∨ (s.read n).2.bytes = []) := by
    intro n
    obtain ⟨b, f⟩ := s
    rcases hs with hs | hs
    · simp only at hs; subst hs; simp [In.read]
    · simp only at hs; subst hs
      unfold In.read
      split_ifs <;> simp
  have hr2 : ∀ n m, ((s.read n).2.read m).1 = [] := by
    intro n m
    rcases (hr n).2 with h | h
    · simp [In.read.eq_1 (s.read n).2, h]
    · rw [In.read.eq_1 (s.read n).2, h]; split_ifs <;> simp
  refine ⟨?_, ?_, ?_⟩
  · simp [readPrim, (hr _).1, over, c.dec_enc]
  · simp [readVector, (hr _).1, over, decArray_enc']
  · refine ⟨((s.read 4).2.read (v.length * c.width)).2, ?_⟩
    simp only [readSparse, (hr 4).1, over, List.nil_append, List.length_nil, List.drop_zero]
    have hi := readInt_intBytes (n := (v.length : Int)) (by omega) (by omega) []
    rw [List.append_nil] at hi
    rw [hi]
    simp only [Outcome.ok_bind]
    rw [if_neg (by omega)]
    simp [hr2]

/-- C133: a `sparse` cell whose file ends inside its items has the number of items the file says. The items the file has in
full are right; the stream fails. -/
theorem sparse_cut_short {T : Type} (c : Codec T) (junk : Nat → List Byte) (t v : List T)
    (hv : v.length < 2 ^ 31) (m : Nat) (h4 : 4 ≤ m) (hm : m < (writeSparse c v).length) :
    ∃ r s', readSparse c junk t ⟨(writeSparse c v).take m, false⟩ = .ok (r, s') ∧ r.length = v.length ∧
      s'.failed = true ∧ ∀ k, 4 + (k + 1) * c.width ≤ m → r[k]? = v[k]? := by
  have hsplit : (writeSparse c v).take m = intBytes v.length ++ (v.flatMap c.enc).take (m - 4) := by
    rw [writeSparse, List.take_append, intBytes_length, List.take_of_length_le (by simp; omega)]
  have hlen : (writeSparse c v).length = 4 + v.length * c.width := by
    rw [writeSparse, List.length_append, intBytes_length, flatMap_enc_length]
  rw [hlen] at hm
  have hr := read_exact (intBytes v.length) ((v.flatMap c.enc).take (m - 4))
  rw [intBytes_length] at hr
  have hi := readInt_intBytes (n := (v.length : Int)) (by omega) (by omega) []
  rw [List.append_nil] at hi
  have htl : ((v.flatMap c.enc).take (m - 4)).length = m - 4 := by
    rw [List.length_take, flatMap_enc_length]; omega
  have hd : In.read ⟨(v.flatMap c.enc).take (m - 4), false⟩ (v.length * c.width) =
      ((v.flatMap c.enc).take (m - 4), ⟨[], true⟩) := by
    simp only [In.read]
    rw [if_neg (by simp), if_neg (by rw [htl]; omega)]
  refine ⟨decArray c v.length (over (junk (v.length * c.width)) ((v.flatMap c.enc).take (m - 4))), ⟨[], true⟩, ?_, ?_, rfl,
    ?_⟩
  · rw [hsplit]
    simp only [readSparse, hr]
    rw [over_full (by simp), hi]
    simp only [Outcome.ok_bind]
    rw [if_neg (by omega)]
    simp only [Int.toNat_natCast, hd]
  · have hdl : ∀ n b, (decArray c n b).length = n := by
      intro n; induction n with
      | zero => intro b; rfl
      | succ n ihn => intro b; simp [decArray, ihn]
    exact hdl _ _
  · intro k hk
    have hget : ∀ n k b, k < n → (decArray c n b)[k]? = some (c.dec ((b.drop (k * c.width)).take c.width)) := by
      intro n
      induction n with
      | zero => intro k b h; omega
      | succ n ih =>
        intro k b h
        cases k with
        | zero => simp [decArray]
        | succ k =>
          simp only [decArray, List.getElem?_cons_succ]
          rw [ih k _ (by omega), List.drop_drop]
          congr 4; ring
    have hkl : k < v.length := by
      by_contra hc
      have : v.length * c.width ≤ (k + 1) * c.width := Nat.mul_le_mul_right _ (by omega)
      omega
    have hw := congrArg (fun l => l[k]?) (decArray_enc' c v)
    beta_reduce at hw
    rw [← hw, hget _ _ _ hkl, hget _ _ _ hkl]
    congr 2
    have hkw : (k + 1) * c.width = k * c.width + c.width := by ring
    have e1 : (over (junk (v.length * c.width)) ((v.flatMap c.enc).take (m - 4))).take (m - 4) =
        (v.flatMap c.enc).take (m - 4) := by
      unfold over
      rw [List.take_append_of_le_length (by rw [htl])]
      exact List.take_of_length_le (by rw [htl])
    have cut : ∀ b : List Byte, (b.drop (k * c.width)).take c.width =
        ((b.take (m - 4)).drop (k * c.width)).take c.width := by
      intro b
      rw [List.drop_take, List.take_take]
      congr 1; omega
    rw [cut, e1, ← cut]

/-- C133: a negative number of items in the file ends the process. -/
theorem sparse_negative {T : Type} (c : Codec T) (junk : Nat → List Byte) (t : List T) {n : Int} (h0 : -2 ^ 31 ≤ n)
    (h1 : n < 0) (rest : List Byte) : readSparse c junk t ⟨intBytes n ++ rest, false⟩ = .abort 134 := by
  have hr := read_exact (intBytes n) rest
  rw [intBytes_length] at hr
  have hi := readInt_intBytes (n := n) h0 (by omega) []
  rw [List.append_nil] at hi
  simp only [readSparse, hr]
  rw [over_full (by simp), hi]
  simp only [Outcome.ok_bind]
  rw [if_pos h1]

/-! ## Examples -/

/-- A one-byte type. -/
def byteCodec : Codec Byte where
  width := 1
  enc b := [b]
  dec l := l.headD 0
  enc_length _ := rfl
  dec_enc _ := rfl

example : [[7, 7], [7, 7]].map List.length ≠ [[1, 2, 3], [4]].map List.length := by decide
/-- Vectors of lengths 3 and 1 read into vectors of length 2. -/
example : readAll (fun t s => .ok (readVector byteCodec t s)) [[7, 7], [7, 7]]
    ⟨[[1, 2, 3], [4]].flatMap (writeVector byteCodec), false⟩ = .ok ([[1, 2], [3, 4]], ⟨[], false⟩) := by rfl
example : ([[1, 2, 3], [4]] : List (List Byte)).flatten = [[1, 2], [3, 4]].flatten := by rfl
example : ([7, 7] : List Byte).length ≤ ([[1, 2, 3], [4]] : List (List Byte)).flatten.length := by decide
/-- The hypotheses of `sparse_cut_short`: three items, of which two are in the file. -/
example : 4 ≤ 6 ∧ 6 < (writeSparse byteCodec [1, 2, 3]).length ∧ 4 + (1 + 1) * byteCodec.width ≤ 6 := by decide
example : (⟨[], false⟩ : In).failed = true ∨ (⟨[], false⟩ : In).bytes = [] := by simp
example : ∀ n, ((fun n => List.replicate n (0 : Byte)) n).length = n := by simp
example : Restores (writeSparse byteCodec) (readSparse byteCodec fun n => List.replicate n 9) [[], [5]] [[1, 2], []] :=
  sparses_restored _ _ (by simp) _ _ rfl (by decide)

end MMSP.CellFiles
