import Verif.FileHeaderProps
import Verif.WrongEndian
/-!
# The front ends of the export tools

Model of the parts of `utility/mmsp2png.cpp`, `mmsp2tsv.cpp`, `mmsp2xyz.cpp`, `mmsp2vti.cpp` and `mmsp2pvd.cpp` that do not depend on the data: which grid class
is chosen for the type line of the file, what the output file is called, and which files of the command line `mmsp2pvd` converts.

Simplifications. Names are ASCII. Opening a file for reading fails exactly if it does not exist. The files of `mmsp2pvd` are not changed by anyone else while it runs.
-/

namespace MMSP.Tool

open FileIO

inductive Prog
  | png | tsv | xyz | vti | pvd
  deriving DecidableEq

/-- The element type of the branch taken: the flags of `utility/mmsp2tsv.cpp` 59-70 in the order in which 131-263 (278-410, 425-557) test them;
`mmsp2png.cpp` 239-250 and 313-445 (459-591, 606-738), `mmsp2xyz.cpp` 158-169 and 233-357 (372-496, 511-635), `mmsp2vti.cpp` 72-83 and 109-230 (245-366, 381-502) and
`mmsp2pvd.cpp` 143-154 and 250-415 (433-598, 616-781) are the same. -/
def element (type : List Byte) : Option (List Byte) :=
  if WrongEndian.finds (ascii "bool") type then some (ascii "bool")
  else if WrongEndian.finds (ascii "unsigned char") type then some (ascii "unsigned char")
  else if WrongEndian.finds (ascii "char") type then some (ascii "char")
  else if WrongEndian.finds (ascii "unsigned int") type then some (ascii "unsigned int")
  else if WrongEndian.finds (ascii "int") type then some (ascii "int")
  else if WrongEndian.finds (ascii "unsigned long") type then some (ascii "unsigned long")
  else if WrongEndian.finds (ascii "long") type then some (ascii "long")
  else if WrongEndian.finds (ascii "unsigned short") type then some (ascii "unsigned short")
  else if WrongEndian.finds (ascii "short") type then some (ascii "short")
  else if WrongEndian.finds (ascii "float") type then some (ascii "float")
  else if WrongEndian.finds (ascii "long double") type then some (ascii "long double")
  else if WrongEndian.finds (ascii "double") type then some (ascii "double")
  else none

/-- The class of the branch taken: `utility/mmsp2tsv.cpp` 130, 277, 424 (`mmsp2png.cpp` 312, 458, 605, `mmsp2xyz.cpp` 232, 371, 510) read numbers into `grid<dim,T>`,
`mmsp2pvd.cpp` 249, 432, 615 and `mmsp2vti.cpp` 108, 244, 380 into `grid<dim,scalar<T> >`; `mmsp2vti.cpp` does not look for the word "scalar". -/
def prefixOf (tool : Prog) (type : List Byte) : List Byte :=
  if (tool ≠ .vti && WrongEndian.finds (ascii "scalar") type) || (!WrongEndian.finds (ascii "vector") type && !WrongEndian.finds (ascii "sparse") type) then
    (if tool = .vti ∨ tool = .pvd then ascii "scalar:" else [])
  else if WrongEndian.finds (ascii "vector") type then ascii "vector:"
  else ascii "sparse:"

/-- From the type line to the name of the cell type of the grid object whose data is exported: `utility/mmsp2tsv.cpp` 52-86, 130-566 and the same places of the other tools.
`mmsp2xyz` gives up on `bool` (233-236, 372-375, 511-514). All but `mmsp2pvd` construct the grid from the file name, which checks the type line
(`include/MMSP.grid.cpp` 1193-1203); `mmsp2pvd` reads the blocks itself and copies the bytes into a grid of the type it believes in (189-264). -/
def open' (tool : Prog) (type : List Byte) : Outcome (List Byte) :=
  if type.take 4 ≠ ascii "grid" then .abort (-1) else
  match element type with
  | none => .abort (-1)
  | some e =>
    let cell := prefixOf tool type ++ e
    if tool = .xyz ∧ e = ascii "bool" then .abort (-1)
    else if tool = .pvd then .ok cell
    else (checkType (gridName cell) type).bind fun _ => .ok cell

/-! ## Names of output files -/

def dot : Byte := 46

/-- `name.find_last_of(".")` -/
def lastDot (name : List Byte) : Option Nat := ((List.range name.length).filter fun i => name[i]? == some dot).getLast?

/-- `utility/mmsp2tsv.cpp` 90-97 (`mmsp2png.cpp` 218-225, `mmsp2xyz.cpp` 188-195): without an output name. `int extpos` is -1 if there is no dot, and the search for a digit
starts after the end then. -/
def outName (ext name : List Byte) : List Byte :=
  match lastDot name with
  | none => name ++ ext
  | some k => if (name.drop k).any isDigit then name ++ ext else name.take k ++ ext

/-- `utility/mmsp2vti.cpp` 55-56, `utility/mmsp2pvd.cpp` 117 -/
def stemName (ext name : List Byte) : List Byte :=
  match lastDot name with
  | none => name ++ ext
  | some k => name.take k ++ ext

/-- Contents of the files. -/
abbrev Files := List Byte → Option (List Byte)

/-- `utility/mmsp2tsv.cpp` 44-566: the output file is created (101) after the type line has been read but before the grid is constructed from the input file by name (132 and on).
`convert` is everything after the type check. Returns the files afterwards and whether the program succeeded. (`mmsp2xyz.cpp` 140-198, 232-645 has the same order.) -/
def runTsv (convert : List Byte → List Byte → Outcome (List Byte)) (fs : Files) (infile outfile : List Byte) : Files × Outcome Unit :=
  match fs infile with
  | none => (fs, .abort (-1))
  | some content =>
    let type := (getline content).1
    if type.take 4 ≠ ascii "grid" ∨ element type = none then (fs, .abort (-1)) else
    let fs' : Files := Function.update fs outfile (some [])
    match fs' infile with
    | none => (fs', .abort (-1))
    | some now =>
      match element type with
      | none => (fs', .abort (-1))
      | some e =>
        let cell := prefixOf .tsv type ++ e
        match (checkType (gridName cell) (getline now).1).bind fun _ => convert cell now with
        | .ok out => (Function.update fs' outfile (some out), .ok ())
        | .ub => (fs', .ub)
        | .abort c => (fs', .abort c)

/-! ## The command line of `mmsp2pvd` -/

/-- `utility/mmsp2pvd.cpp` 33-48: options in front of the file names. -/
def options (args : List (List Byte)) : Nat :=
  match args with
  | [] => 0
  | a :: _ => if a = ascii "--mag" ∨ a = ascii "--max" ∨ a.take 8 = ascii "--field=" then 1 else 0

/-- `for (int i=dat_idx; i<argc && pvd_idx<0; i++)`: the first index, from `i` on, with the property. -/
def firstFrom (p : List Byte → Bool) (args : List (List Byte)) (i : Nat) : Option Nat := ((args.drop i).findIdx? p).map (· + i)

/-- `utility/mmsp2pvd.cpp` 33-84: which argument names the output (`pvd_idx`) and where the data files begin (`dat_idx`); indices without the program name.
`exists_` says which files can be opened. -/
def arguments (exists_ : List Byte → Bool) (args : List (List Byte)) : Option Nat × Nat :=
  match firstFrom (fun a => a.take 9 == ascii "--output=") args (options args) with
  | some i => (some i, i + 1)
  | none =>
    match firstFrom (fun a => !exists_ a) args (options args) with
    | some i => (some i, i + 1)
    | none => (none, options args)

/-- The `DataSet` entries of the collection, `utility/mmsp2pvd.cpp` 110-120: time step and file name. Without an output name the name of the first data file is used (85-86),
and `argv[argc]` is a null pointer. -/
def entries (exists_ : List Byte → Bool) (args : List (List Byte)) : Outcome (List (Nat × List Byte)) :=
  let a := arguments exists_ args
  if a.1 = none ∧ args.length ≤ a.2 then .ub
  else .ok (((List.range args.length).filter fun i => a.2 ≤ i ∧ a.1 ≠ some i).map fun i => (i - a.2, stemName (ascii ".vti") (args.getD i [])))

/-- `utility/mmsp2pvd.cpp` 198-795: every block of the input is written to the same file, with spacing 1; `picture` is the image made of one block. -/
def writeBlocks {B : Type} (picture : B → Outcome (List Byte)) (fs : Files) (vti : List Byte) (blocks : List B) : Outcome Files :=
  blocks.foldlM (fun fs b => (picture b).bind fun p => .ok (Function.update fs vti (some p))) fs

end MMSP.Tool
