import Verif.Convert
import Verif.Voxel
import Verif.Session
/-!
# The converters as programs from file to file

Model of the `main` functions of `utility/MC2PF.cpp`, `utility/MC2sPF.cpp`, `utility/PF2MC.cpp`, `utility/PF2sPF.cpp`, `utility/sPF2MC.cpp` and
`utility/sPF2PF.cpp`, around the loops of `Verif.Convert` (`utility/Makefile` compiles them without MPI).

Simplifications. Names are ASCII, a file can be opened for reading exactly if it exists, and every file can be created. The value type is any linear order
with an encoding of fixed width, so NaN and the two zeros of `double` are not distinguished. Numbers in text are as in `Verif.FileHeader`; a number that the
program never set is `none`, and using it is undefined behaviour.
-/

namespace MMSP.ConvertFile

open FileIO Tool Sessions Voxel

/-- What differs between the six front ends: the words that the type line must contain, those that it must not, whether one field is asked for, and the
default extension. -/
structure Kind where
  need : List (List Byte)
  avoid : List (List Byte)
  single : Bool
  ext : List Byte

/-- `utility/MC2PF.cpp` 32, 75 -/
def mc2pfKind : Kind := ⟨[ascii "int"], [ascii "vector", ascii "sparse"], false, ascii ".PF"⟩
/-- `utility/MC2sPF.cpp` 32, 75, 88-94 -/
def mc2spfKind : Kind := ⟨[ascii "int"], [ascii "vector", ascii "sparse"], true, ascii ".sPF"⟩
/-- `utility/PF2MC.cpp` 32, 74 -/
def pf2mcKind : Kind := ⟨[ascii "vector", ascii "double"], [], false, ascii ".MC"⟩
/-- `utility/PF2sPF.cpp` 32, 74 -/
def pf2spfKind : Kind := ⟨[ascii "vector", ascii "double"], [], false, ascii ".sPF"⟩
/-- `utility/sPF2MC.cpp` 32, 74 -/
def spf2mcKind : Kind := ⟨[ascii "sparse", ascii "double"], [], false, ascii ".MC"⟩
/-- `utility/sPF2PF.cpp` 32, 74 -/
def spf2pfKind : Kind := ⟨[ascii "sparse", ascii "double"], [], false, ascii ".PF"⟩

/-- The type line: `utility/MC2PF.cpp` 41-78, `utility/PF2MC.cpp` 41-77 and the same places of the others. The list of all known types (64-72) is implied by the
last test. -/
def typeOk (k : Kind) (type : List Byte) : Bool :=
  type.take 4 == ascii "grid" && k.need.all (WrongEndian.finds · type) && k.avoid.all fun w => !WrongEndian.finds w type

/-- `utility/MC2PF.cpp` 37-86 and the same places of the others; `utility/MC2sPF.cpp` 37-94: which dimension the grid has. -/
def front (k : Kind) (content : List Byte) : Outcome Nat :=
  let line := getline content
  if typeOk k line.1 = false then .abort (-1) else
  let dim := extract none (some line.2)
  match dim.1 with
  | none => .ub
  | some d =>
    if d < 1 ∨ d > 3 then .abort (-1) else
    if k.single = false then .ok d.toNat else
    match (extract none dim.2).1 with
    | none => .ub
    | some fields => if fields ≠ 1 then .abort (-1) else .ok d.toNat

/-- `utility/MC2PF.cpp` 30-34 and the same places of the others -/
def target (k : Kind) (infile : List Byte) : Option (List Byte) → List Byte
  | none => stemName k.ext infile
  | some out => out

/-- `MMSP::output(grid2, filename.str().c_str())` for a grid that the program made, `include/MMSP.grid.cpp` 1360-1401. -/
def written {U D : Type} (fout : Nat → Format U D) (shape : Shape) (fields : Int) (dx : Nat → D) (data : Int → U) : Outcome (List Byte) :=
  outputBytes (fout shape.dim).comp (fout shape.dim).cell (fout shape.dim).dec (fout shape.dim).name shape.dim fields shape.x0 shape.x1 dx [⟨shape, data⟩]

/-- `utility/MC2PF.cpp` 88-155 and the same places of the others: the grid is read by name, converted and written. `view` and `pack` translate between
cells in memory and values. -/
def body {T U T' U' D : Type} (fin : Nat → Format T D) (fout : Nat → Format U D) (view : T → T') (pack : U' → U)
    (conv : Convert.Grid D T' → Outcome (Convert.Grid D U')) (content : List Byte) (d : Nat) : Outcome (List Byte) :=
  (input (fin d).comp (fin d).cell (fin d).fresh (fin d).dec (fin d).dx0 .serial (fin d).name d 1 1 0 content).bind fun o =>
  (conv ⟨o.local_.shape, o.fields, o.dx, fun i => view (o.local_.data i)⟩).bind fun g2 =>
  written fout g2.shape g2.fields g2.dx fun i => pack (g2.data i)

/-- One of the programs: the files afterwards and whether it succeeded. The output is opened when the grid is written, after everything else. -/
def convert {T U T' U' D : Type} (k : Kind) (fin : Nat → Format T D) (fout : Nat → Format U D) (view : T → T') (pack : U' → U)
    (conv : Convert.Grid D T' → Outcome (Convert.Grid D U')) (fs : Files) (infile : List Byte) (out : Option (List Byte)) : Files × Outcome Unit :=
  match fs infile with
  | none => (fs, .abort (-1))
  | some content =>
    match (front k content).bind fun d => body fin fout view pack conv content d with
    | .ok file => (Function.update fs (target k infile out) (some file), .ok ())
    | .ub => (fs, .ub)
    | .abort c => (fs, .abort c)

/-! ## The three kinds of files -/

/-- What the programs share: compression, text conversion of `double`, the spacing of axes that do not exist, the encoding of `double`, the alignment of
`item<double>` and what a new `int` contains. -/
structure Env (α D : Type) where
  comp : Option Zlib
  dec : Decimal D
  dx0 : D
  codec : Codec α
  pad : Nat
  pad0 : { l : List Byte // l.length = pad }
  junk : CInt
  junkVec : Int → List α

variable {α D : Type}

/-- Files of `grid<d,int>` -/
def Env.mc (e : Env α D) (d : Nat) : Format CInt D := ⟨e.comp, primCell intCodec, fun _ => e.junk, e.dec, e.dx0, gridName (ascii "int"), d⟩
/-- Files of `grid<d,vector<double> >` -/
def Env.pf (e : Env α D) (d : Nat) : Format (List α) D := ⟨e.comp, arrayCell e.codec, e.junkVec, e.dec, e.dx0, gridName (ascii "vector:double"), d⟩
/-- Files of `grid<d,sparse<double> >` -/
def Env.spf (e : Env α D) (d : Nat) : Format (List (RawItem α e.pad)) D :=
  ⟨e.comp, arrayCell (itemCodec e.codec e.pad e.pad0), fun _ => [], e.dec, e.dx0, gridName (ascii "sparse:double"), d⟩

/-- The `int` of a value; no other values occur. -/
def toCInt (n : Int) : CInt := if h : -2 ^ 31 ≤ n ∧ n < 2 ^ 31 then ⟨n, h⟩ else ⟨0, by decide⟩

/-- Index and value of the items. -/
def entries {pad : Nat} (v : List (RawItem α pad)) : Sparse.Cell α := v.map fun it => (it.1.1, it.2.2)
/-- New items have some alignment bytes. -/
def items {pad : Nat} (pad0 : { l : List Byte // l.length = pad }) (c : Sparse.Cell α) : List (RawItem α pad) := c.map fun e => (toCInt e.1, pad0, e.2)

variable [One D]

/-- `utility/MC2PF.cpp` -/
def mc2pf [Zero α] [One α] (e : Env α D) : Files → List Byte → Option (List Byte) → Files × Outcome Unit :=
  convert mc2pfKind e.mc e.pf (fun v : CInt => v.1) id (Convert.mc2pf fun fields _ => e.junkVec fields)
/-- `utility/MC2sPF.cpp` -/
def mc2spf [Zero α] [One α] (e : Env α D) : Files → List Byte → Option (List Byte) → Files × Outcome Unit :=
  convert mc2spfKind e.mc e.spf (fun v : CInt => v.1) (items e.pad0) Convert.mc2spf
/-- `utility/PF2MC.cpp` -/
def pf2mc [LinearOrder α] (e : Env α D) : Files → List Byte → Option (List Byte) → Files × Outcome Unit :=
  convert pf2mcKind e.pf e.mc id toCInt (Convert.pf2mc fun _ => e.junk.1)
/-- `utility/PF2sPF.cpp`; `eps` is `1.0e-8`. -/
def pf2spf [LinearOrder α] [Zero α] (e : Env α D) (eps : α) : Files → List Byte → Option (List Byte) → Files × Outcome Unit :=
  convert pf2spfKind e.pf e.spf id (items e.pad0) (Convert.pf2spf eps)
/-- `utility/sPF2MC.cpp` -/
def spf2mc [LinearOrder α] [Zero α] (e : Env α D) : Files → List Byte → Option (List Byte) → Files × Outcome Unit :=
  convert spf2mcKind e.spf e.mc entries toCInt (Convert.spf2mc fun _ => e.junk.1)
/-- `utility/sPF2PF.cpp` -/
def spf2pf [Zero α] (e : Env α D) : Files → List Byte → Option (List Byte) → Files × Outcome Unit :=
  convert spf2pfKind e.spf e.pf entries id (Convert.spf2pf fun fields _ => e.junkVec fields)

end MMSP.ConvertFile
