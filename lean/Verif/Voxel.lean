import Verif.Tool
/-!
# Voxel files and the old compression tool

Model of `utility/MC2vox.cpp`, `utility/vox2MC.cpp` and `utility/mmsp2z.cpp` (`utility/Makefile` compiles them without MPI).

Simplifications. Names are ASCII, a file can be opened for reading exactly if it exists, and every file can be created. Numbers in text
are as in `Verif.FileHeader`. Numbers that the program never set are `none`, or come from the parameter `junk`.
-/

namespace MMSP.Voxel

open FileIO Tool

/-- Values of a C++ `int`. -/
abbrev CInt := { n : Int // -2 ^ 31 ≤ n ∧ n < 2 ^ 31 }

/-- The four bytes of an `int` in memory. -/
def intCodec : Codec CInt where
  width := 4
  enc := fun i => intBytes i.1
  dec := fun buf =>
    let n := ofLe buf
    let i : Int := if n < 2 ^ 31 then (n : Int) else (n : Int) - 2 ^ 32
    if h : -2 ^ 31 ≤ i ∧ i < 2 ^ 31 then ⟨i, h⟩ else ⟨0, by decide⟩
  enc_length := fun v => by simp [intBytes, leBytes]
  dec_enc := by
    rintro ⟨i, hi⟩
    have hn : ofLe (intBytes i) = (i % 2 ^ 32).toNat := by
      unfold intBytes
      simp only [leBytes, ofLe, UInt8.toNat_ofNat']
      omega
    have hdec : (if (i % 2 ^ 32).toNat < 2 ^ 31 then ((i % 2 ^ 32).toNat : Int) else ((i % 2 ^ 32).toNat : Int) - 2 ^ 32) = i := by
      split <;> omega
    simp only [hn, hdec]
    rw [dif_pos hi]

/-- `name(grid<3,int>)`, `include/MMSP.grid.h` 593-596 -/
def intName : List Byte := gridName (ascii "int")

/-! ## MC2vox -/

/-- `utility/MC2vox.cpp` 100-102: `std::set<int>::insert` for all values. -/
def grainSet (vs : List CInt) : List CInt := vs.foldl (fun s v => if v ∈ s then s else v :: s) []

/-- `utility/MC2vox.cpp` 112-120: twenty values per line. -/
def rows : Nat → List CInt → List Byte
  | _, [] => []
  | count, v :: vs =>
    intDec v.1 ++ blank :: (if count + 1 = 20 then newline :: rows 0 vs else rows (count + 1) vs)

/-- `utility/MC2vox.cpp` 108 in front of the number -/
def secondLine : List Byte := ascii "'grwXXX'\t\t\t\t52.00 1.000 1.0\t\t"
/-- `utility/MC2vox.cpp` 109 -/
def thirdLine : List Byte := ascii "3.000 0.000 0.000\t\t\t0"

/-- `utility/MC2vox.cpp` 99-120: the text. -/
def voxText (g : Shape) (vs : List CInt) : List Byte :=
  intDec (g.x1 0 - g.x0 0) ++ blank :: (intDec (g.x1 1 - g.x0 1) ++ blank :: (intDec (g.x1 2 - g.x0 2) ++ newline ::
    (secondLine ++ intDec (grainSet vs).length ++ newline :: (thirdLine ++ newline :: rows 0 vs))))

/-- `GRID(0)`, …, `GRID(nodes(GRID)-1)` -/
def values (g : Shape) (data : Int → CInt) : Outcome (List CInt) :=
  (List.range g.nodes.toNat).mapM fun i => deref g data (g.atNode .serial (i : Nat))

/-- `utility/MC2vox.cpp` 31-35 -/
def voxName (infile : List Byte) : Option (List Byte) → List Byte
  | none => stemName (ascii ".PF") infile
  | some out => out

/-- `utility/MC2vox.cpp` 37-87: the tests of the type line and of the dimension. -/
def accepts (content : List Byte) : Bool :=
  let line := getline content
  line.1.take 4 == ascii "grid" && WrongEndian.finds (ascii "int") line.1 && !WrongEndian.finds (ascii "vector") line.1 &&
    !WrongEndian.finds (ascii "sparse") line.1 && (match extractInt line.2 with | some n => n.1 == 3 | none => false)

/-- `utility/MC2vox.cpp` 23-121: files afterwards and whether the program succeeded. The output is created (90) before the grid is read by
name (97). -/
def mc2vox {D : Type} (comp : Option Zlib) (fresh : Int → CInt) (dec : Decimal D) (dx0 : D) (fs : Files) (infile : List Byte) (out : Option (List Byte)) :
    Files × Outcome Unit :=
  match fs infile with
  | none => (fs, .abort (-1))
  | some content =>
    if accepts content = false then (fs, .abort (-1)) else
    let outfile := voxName infile out
    let fs' : Files := Function.update fs outfile (some [])
    match (input comp (primCell intCodec) fresh dec dx0 .serial intName 3 1 1 0 ((fs' infile).getD [])).bind fun o =>
        (values o.local_.shape o.local_.data).bind fun vs => .ok (voxText o.local_.shape vs) with
    | .ok text => (Function.update fs' outfile (some text), .ok ())
    | .ub => (fs', .ub)
    | .abort c => (fs', .abort c)

/-! ## vox2MC -/

/-- What a failing `operator>>(int&)` leaves in the variable: nothing new when the stream has ended, else zero or the nearest `int`. -/
def failValue (old : Option Int) (s : List Byte) : Option Int :=
  let t := s.dropWhile isSpace
  if t = [] then old else
  let p := splitSign t
  if p.2.takeWhile isDigit = [] then some 0 else if p.1 then some (-2 ^ 31) else some (2 ^ 31 - 1)

/-- `input >> v` in either state of the stream (`none`: it has failed before), for a variable that holds `old`. -/
def extract (old : Option Int) : Option (List Byte) → Option Int × Option (List Byte)
  | none => (old, none)
  | some s =>
    match extractInt s with
    | some r => (some r.1, some r.2)
    | none => (failValue old s, none)

/-- `utility/vox2MC.cpp` 50, `n` nodes to go: cells that were not set are `none`. -/
def readValues : Nat → Option (List Byte) → List (Option Int)
  | 0, _ => []
  | n + 1, s => let r := extract none s; r.1 :: readValues n r.2

/-- `utility/vox2MC.cpp` 37-50: the three lengths and the cells. `new int[n]` with a negative number throws. -/
def readVox (text : List Byte) : Outcome ((Int × Int × Int) × List (Option Int)) :=
  let a := extract none (some text)
  let b := extract none a.2
  let c := extract none b.2
  match a.1, b.1, c.1 with
  | some nx, some ny, some nz =>
    if nx * ny * nz < 0 then .abort 134 else
    let s := c.2.map fun s => (getline (getline (getline s).2).2).2
    .ok ((nx, ny, nz), readValues (nx * ny * nz).toNat s)
  | _, _, _ => .ub

/-- Limits of `MMSP::grid<3,int> GRID(1, 0, nx, 0, ny, 0, nz)` -/
def side (n : Int × Int × Int) (j : Nat) : Int := if j = 0 then n.1 else if j = 1 then n.2.1 else n.2.2

/-- `utility/vox2MC.cpp` 46-50: the data array. A value out of the range of `int` does not occur. -/
def fillNodes (junk : Int → CInt) (vs : List (Option Int)) (i : Int) : CInt :=
  match (vs[i.toNat]?).getD none with
  | some v => if h : -2 ^ 31 ≤ v ∧ v < 2 ^ 31 then ⟨v, h⟩ else junk i
  | none => junk i

/-- `utility/vox2MC.cpp` 29-34 -/
def mcName (infile : List Byte) : Option (List Byte) → List Byte
  | none => stemName (ascii ".MC") infile
  | some out => out

/-- `utility/vox2MC.cpp` 22-54. `one` is the default spacing (`include/MMSP.grid.cpp` 151); the file is created by `output`, after everything has been read. -/
def vox2mc {D : Type} (comp : Option Zlib) (dec : Decimal D) (one : D) (junk : Int → CInt) (fs : Files) (infile : List Byte) (out : Option (List Byte)) :
    Files × Outcome Unit :=
  match fs infile with
  | none => (fs, .abort (-1))
  | some text =>
    match (readVox text).bind fun r =>
        outputBytes comp (primCell intCodec) dec intName 3 1 (fun _ => 0) (side r.1) (fun _ => one)
          [⟨⟨3, fun _ => 0, side r.1, fun _ => .periodic, fun _ => .periodic, 0⟩, fillNodes junk r.2⟩] with
    | .ok file => (Function.update fs (mcName infile out) (some file), .ok ())
    | .ub => (fs, .ub)
    | .abort c => (fs, .abort c)

/-! ## mmsp2z -/

/-- `utility/mmsp2z.cpp` 100-158: one block. `1.125 * size + 12` is rounded down to an integer; reading beyond the end of the file leaves the array
partly unset and is undefined here. -/
def zBlock (z : Zlib) (d : Nat) (s : List Byte) : Outcome (List Byte × List Byte) :=
  (readPairs d s).bind fun lims =>
  (freadULong lims.2).bind fun size =>
  if ¬ size.1 + size.1 / 8 > size.1 then .abort 134 else
  (fread size.1 size.2).bind fun raw =>
  let packed := z.compress raw.1
  if size.1 + size.1 / 8 + 12 < packed.length then .abort 1 else
  .ok ((lims.1.flatMap fun p => intBytes p.1 ++ intBytes p.2) ++ ulongBytes size.1 ++ ulongBytes packed.length ++ packed, raw.2)

/-- `utility/mmsp2z.cpp` 100-171 -/
def zBlocks (z : Zlib) (d : Nat) : Nat → List Byte → Outcome (List Byte)
  | 0, _ => .ok []
  | n + 1, s => (zBlock z d s).bind fun b => (zBlocks z d n b.2).bind fun r => .ok (b.1 ++ r)

/-- `utility/mmsp2z.cpp` 55-171: contents of the input to contents of the output. `dec` is the text conversion of `float`. -/
def mmsp2z {D : Type} (z : Zlib) (dec : Decimal D) (content : List Byte) : Outcome (List Byte) :=
  let line := getline content
  (orUb (extractInt line.2)).bind fun dim =>
  if dim.1 < 1 ∨ dim.1 > 3 then .abort (-1) else
  (orUb (extractInt dim.2)).bind fun fields =>
  (extractPairs dim.1.toNat fields.2).bind fun lims =>
  (extractReals dec dim.1.toNat lims.2).bind fun dx =>
  (freadInt (ignore 10 dx.2)).bind fun blocks =>
  (zBlocks z dim.1.toNat blocks.1.toNat blocks.2).bind fun b =>
  .ok (line.1 ++ newline :: (intDec dim.1 ++ newline :: (intDec fields.1 ++ newline ::
    ((lims.1.flatMap fun p => intDec p.1 ++ blank :: (intDec p.2 ++ [newline])) ++ ((dx.1.flatMap fun v => dec.put v ++ [newline]) ++
      (intBytes blocks.1 ++ b))))))

end MMSP.Voxel
