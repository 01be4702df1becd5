import Verif.FileIO
/-!
# Text header of MMSP files; `grid::input` and `grid::output` as a whole

Model of `grid::output` (serial, `include/MMSP.grid.cpp` 1360-1401; the header part is the same in 1439-1452 and 1567-1580) and
of `grid::input` (1183-1246) with `SINGLE == false`, without the ghost exchange at its end (that is `Ghost.lean`).

Simplifications. Characters are ASCII bytes. `operator<<` and `operator>>` of `int` are decimal notation with optional sign and
leading white space; when an extraction fails, the values read later are indeterminate and the model returns `ub`
(for the dimension the extraction stores 0, or an extreme value, which is not the dimension of any grid, so the program
exits with -3). Text conversion of `double` is a parameter (`Decimal`).
-/

namespace MMSP.FileIO

/-- ASCII bytes of a string literal. -/
def ascii (s : String) : List Byte := s.toList.map fun ch => UInt8.ofNat ch.toNat

def newline : Byte := 10
def blank : Byte := 32
def colon : Byte := 58
def minus : Byte := 45

def isDigit (b : Byte) : Bool := 48 ≤ b.toNat && b.toNat ≤ 57
/-- `isspace` of the "C" locale. -/
def isSpace (b : Byte) : Bool := b.toNat == 32 || (9 ≤ b.toNat && b.toNat ≤ 13)

/-- Decimal digits of a natural number. -/
def natDec (n : Nat) : List Byte :=
  if n < 10 then [UInt8.ofNat (48 + n)] else natDec (n / 10) ++ [UInt8.ofNat (48 + n % 10)]

/-- `operator<<(int)` -/
def intDec (n : Int) : List Byte := if n < 0 then minus :: natDec n.natAbs else natDec n.natAbs

/-- Value of a digit string. -/
def digitsVal (ds : List Byte) : Nat := ds.foldl (fun a b => 10 * a + (b.toNat - 48)) 0

/-- Optional sign in front of a number. -/
def splitSign : List Byte → Bool × List Byte
  | b :: t => if b = minus then (true, t) else if b.toNat = 43 then (false, t) else (false, b :: t)
  | [] => (false, [])

/-- `operator>>(int&)`: the value and the rest of the stream, or `none` when the extraction fails. -/
def extractInt (s : List Byte) : Option (Int × List Byte) :=
  let p := splitSign (s.dropWhile isSpace)
  let ds := p.2.takeWhile isDigit
  let v : Int := if p.1 then -(digitsVal ds : Int) else digitsVal ds
  if ds = [] ∨ ¬ (-2 ^ 31 ≤ v ∧ v < 2 ^ 31) then none else some (v, p.2.dropWhile isDigit)

/-- Text conversion of `double`. -/
structure Decimal (D : Type) where
  /-- `operator<<(double)` with the default precision -/
  put : D → List Byte
  /-- `operator>>(double&)` -/
  get : List Byte → Option (D × List Byte)
  /-- the value that survives printing with six significant digits -/
  round6 : D → D
  /-- assumed: extraction skips the newline before a printed number, stops at the newline after it and yields the rounded value -/
  get_put : ∀ v rest, get (newline :: (put v ++ newline :: rest)) = some (round6 v, newline :: rest)

/-- `getline(input, type, '\n')` -/
def getline (s : List Byte) : List Byte × List Byte :=
  (s.takeWhile (· ≠ newline), (s.dropWhile (· ≠ newline)).drop 1)

/-- `input.ignore(n, '\n')` -/
def ignore : Nat → List Byte → List Byte
  | 0, s => s
  | _ + 1, [] => []
  | n + 1, b :: s => if b = newline then s else ignore n s

/-- `type.find_last_of(":", 8)` -/
def findLastColon (s : List Byte) : Option Nat :=
  ((List.range 9).filter fun i => s[i]? == some colon).getLast?

/-- `include/MMSP.grid.cpp` 1194-1203; `mine` is `name(*this)`. `substr` of `npos` throws `std::out_of_range`, which nothing
catches. -/
def checkType (mine type : List Byte) : Outcome Unit :=
  match findLastColon type with
  | none => .abort 134
  | some k =>
    let scalarType := ascii "grid:scalar" ++ type.drop k
    let type' := if type ≠ mine ∧ scalarType = mine then scalarType else type
    if type' ≠ mine then .abort (-2) else .ok ()

/-- An extraction whose failure leaves later variables indeterminate. -/
def orUb {α : Type} : Option α → Outcome α
  | some a => .ok a
  | none => .ub

/-- `include/MMSP.grid.cpp` 1217-1218: `d` pairs of limits. -/
def extractPairs : Nat → List Byte → Outcome (List (Int × Int) × List Byte)
  | 0, s => .ok ([], s)
  | d + 1, s => (orUb (extractInt s)).bind fun a => (orUb (extractInt a.2)).bind fun b =>
    (extractPairs d b.2).bind fun r => .ok ((a.1, b.1) :: r.1, r.2)

/-- `include/MMSP.grid.cpp` 1234-1235: `d` spacings. -/
def extractReals {D : Type} (dec : Decimal D) : Nat → List Byte → Outcome (List D × List Byte)
  | 0, s => .ok ([], s)
  | d + 1, s => (orUb (dec.get s)).bind fun a => (extractReals dec d a.2).bind fun r => .ok (a.1 :: r.1, r.2)

/-- What `input` learns from the header. -/
structure Header (D : Type) where
  fields : Int
  limits : List (Int × Int)
  dx : List D

/-- `include/MMSP.grid.cpp` 1192-1238 (the call of `setup` at 1232 does not touch the stream). -/
def inputHeader {D : Type} (dec : Decimal D) (mine : List Byte) (d : Nat) (file : List Byte) : Outcome (Header D × List Byte) :=
  let line := getline file
  (checkType mine line.1).bind fun _ =>
  match extractInt line.2 with
  | none => .abort (-3)
  | some dimen =>
    if dimen.1 ≠ d then .abort (-3) else
    (orUb (extractInt dimen.2)).bind fun fields =>
    (extractPairs d fields.2).bind fun limits =>
    (extractReals dec d limits.2).bind fun dx =>
    .ok (⟨fields.1, limits.1, dx.1⟩, ignore 10 dx.2)

/-- `include/MMSP.grid.cpp` 1372-1385: type name, dimension, number of fields, limits, spacings. -/
def header {D : Type} (dec : Decimal D) (nm : List Byte) (d : Nat) (fields : Int) (g0 g1 : Nat → Int) (dx : Nat → D) : List Byte :=
  nm ++ newline :: (intDec d ++ newline :: (intDec fields ++ newline ::
    (((List.range d).flatMap fun j => intDec (g0 j) ++ blank :: (intDec (g1 j) ++ [newline])) ++
     ((List.range d).flatMap fun j => dec.put (dx j) ++ [newline]))))

/-- A grid object after `input`. -/
structure GridObject (T D : Type) where
  fields : Int
  g0 : Nat → Int
  g1 : Nat → Int
  dx : Nat → D
  local_ : Reader T

/-- `include/MMSP.grid.cpp` 141-317, `setup(false)`, in either build. -/
def setupShape (bd : Build) (d : Nat) (g0 g1 : Nat → Int) (ghosts : Int) (np : Nat) (rank : Int) : Shape :=
  match bd with
  | .serial => ⟨d, g0, g1, fun _ => .periodic, fun _ => .periodic, 0⟩
  | .mpi => Decomp.localShape d g0 g1 ghosts np rank

/-- `include/MMSP.grid.cpp` 1183-1240, `input(filename, GHOSTS)` up to the ghost exchange. `fresh fields` is the content of a
newly allocated cell; `dx0` stands for the spacing of axes that do not exist. -/
def input {T D : Type} (comp : Option Zlib) (c : Cell T) (fresh : Int → T) (dec : Decimal D) (dx0 : D) (bd : Build)
    (mine : List Byte) (d : Nat) (ghosts : Int) (np : Nat) (rank : Int) (file : List Byte) : Outcome (GridObject T D) :=
  (inputHeader dec mine d file).bind fun h =>
  let g0 := fun j => (h.1.limits.getD j (0, 0)).1
  let g1 := fun j => (h.1.limits.getD j (0, 0)).2
  (read comp c (fresh h.1.fields) ⟨setupShape bd d g0 g1 ghosts np rank, fun _ => fresh h.1.fields⟩ h.2).bind fun r =>
  .ok ⟨h.1.fields, g0, g1, fun j => h.1.dx.getD j dx0, r.1⟩

/-- `include/MMSP.grid.cpp` 1360-1401, the bytes of the file written by `output`; `ws` are the grid objects of all ranks
(`[w]` in the serial program). -/
def outputBytes {T D : Type} (comp : Option Zlib) (c : Cell T) (dec : Decimal D) (nm : List Byte) (d : Nat) (fields : Int)
    (g0 g1 : Nat → Int) (dx : Nat → D) (ws : List (Reader T)) : Outcome (List Byte) :=
  (dataSection comp c ws).bind fun b => .ok (header dec nm d fields g0 g1 dx ++ b)

end MMSP.FileIO
