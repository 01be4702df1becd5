import Verif.FileHeader
/-!
# The main program

Model of `include/MMSP.main.hpp` 38-354 (`main` of every MMSP program that steps a grid).

Strings are lists of bytes. Simplifications: printing and `srand` are left out; `argv` holds no null bytes; `new` does not fail; the
user's `update` is a function `G → Int → G`; opening the input twice (line 215 and in the constructor) sees the same content; the
constructor's own checks are a parameter `load`. `FILENAME_MAX` is 4096. Loops are given fuel; running out of it is a
separate result, so that a loop that never ends is one that runs out of every amount of fuel.
-/

namespace MMSP.Driver

open MMSP.FileIO

def dot : Byte := 46
def zero : Byte := 48

/-- `s.find_first_not_of("0123456789") == npos` (also for the empty string). -/
def allDigits (s : List Byte) : Bool := s.all isDigit

/-- `atoi(s)`: white space, sign, digits; no digits give 0. A value that is no `int` is undefined behaviour. -/
def atoi (s : List Byte) : Outcome Int :=
  let p := splitSign (s.dropWhile isSpace)
  let n : Int := digitsVal (p.2.takeWhile isDigit)
  let v := if p.1 then -n else n
  if -2 ^ 31 ≤ v ∧ v < 2 ^ 31 then .ok v else .ub

/-- `s.find(".", pos)`. -/
def findDot (s : List Byte) (pos : Nat) : Option Nat := ((s.drop pos).findIdx? (· == dot)).map (pos + ·)

/-- `s.rfind('.', pos)`. -/
def rfindDot (s : List Byte) (pos : Nat) : Option Nat :=
  let t := s.take (pos + 1)
  (t.reverse.findIdx? (· == dot)).map (t.length - 1 - ·)

/-- `s.find_first_of(".")` -/
def firstDot (s : List Byte) : Option Nat := findDot s 0
/-- `s.find_last_of(".")` -/
def lastDot (s : List Byte) : Option Nat := rfindDot s s.length
/-- `s.substr(pos, n)` -/
def substr (s : List Byte) (pos n : Nat) : List Byte := (s.drop pos).take n

/-- What the command line asks for. -/
structure Params where
  outfile : List Byte
  steps : Int
  increment : Int
deriving DecidableEq, Repr

/-- `include/MMSP.main.hpp` 158-165, 182-190, 195-202: an argument that must be a number. -/
def numberArg (s : List Byte) : Outcome Int := if allDigits s then atoi s else .abort (-1)

/-- `include/MMSP.main.hpp` 156-174 and 193-211. -/
def withIncrement (outfile : List Byte) (steps : Int) (arg : List Byte) : Outcome Params :=
  (numberArg arg).bind fun increment =>
  if increment > steps then .abort (-1) else .ok ⟨outfile, steps, increment⟩

/-- `include/MMSP.main.hpp` 130-212 on `argv`. Line 182 makes a string of `argv[3]`, a null pointer if there are only two arguments. -/
def params (argv : List (List Byte)) : Outcome Params :=
  if argv.length < 3 ∨ argv.length > 5 then .abort (-1) else
  let a := fun i => argv.getD i []
  if allDigits (a 2) then
    (atoi (a 2)).bind fun steps =>
    if argv.length > 3 then withIncrement (a 1) steps (a 3) else .ok ⟨a 1, steps, steps⟩
  else
    if argv.length ≤ 3 then .ub else
    (numberArg (a 3)).bind fun steps =>
    if argv.length > 4 then withIncrement (a 2) steps (a 4) else .ok ⟨a 2, steps, steps⟩

/-- `include/MMSP.main.hpp` 238-242: `iterations_start`. The second argument of `substr` is a length. -/
def iterationsStart (outfile : List Byte) : Outcome Int :=
  match firstDot outfile, lastDot outfile with
  | some f, some l => if f ≠ l then atoi (substr outfile (f + 1) (l - 1)) else .ok 0
  | _, _ => .ok 0

/-- The name up to its last dot (all of it without a dot), and a dot. -/
def upToLast (outfile : List Byte) : List Byte := outfile.take ((lastDot outfile).getD outfile.length) ++ [dot]

/-- `include/MMSP.main.hpp` 243-257: `base`. -/
def base (outfile : List Byte) : List Byte :=
  match firstDot outfile, lastDot outfile with
  | some f, some l =>
    match findDot outfile (f + 1), rfindDot outfile (l - 1) with
    | some _, some p =>
      if (substr outfile (p + 1) (l - p - 1)).all isDigit then outfile.take p ++ [dot] else upToLast outfile
    | _, _ => upToLast outfile
  | _, _ => upToLast outfile

/-- `include/MMSP.main.hpp` 260-262: `suffix`. -/
def suffix (outfile : List Byte) : List Byte := outfile.drop ((lastDot outfile).getD outfile.length)

/-- `include/MMSP.main.hpp` 284-290 (and 310-316, 336-342), from `j` on: a zero is added until the name has the length. -/
def padName (base suffix : List Byte) (length : Nat) (k : Int) : Nat → Nat → List Byte
  | 0, j => base ++ List.replicate j zero ++ intDec k ++ suffix
  | fuel + 1, j =>
    let s := base ++ List.replicate j zero ++ intDec k ++ suffix
    if s.length < length then padName base suffix length k fuel (j + 1) else s

/-- `include/MMSP.main.hpp` 265-270 and 282-294: the name of the file written after step `k`. As many rounds as characters
suffice. The buffer of 4096 zeros must keep one. -/
def fileName (outfile : List Byte) (steps k : Int) : Outcome (List Byte) :=
  let length := (base outfile).length + (suffix outfile).length + (intDec steps).length
  let s := padName (base outfile) (suffix outfile) length k length 0
  if s.length < 4096 then .ok s else .ub

variable {G : Type}

/-- `include/MMSP.main.hpp` 278-298 (and 304-324, 330-349): the output files in order; `none` if the fuel does not last. -/
def timeLoop (update : G → Int → G) (p : Params) : Nat → Int → G → Outcome (Option (List (List Byte × G)))
  | 0, i, _ => if i < p.steps then .ok none else .ok (some [])
  | fuel + 1, i, g =>
    if i < p.steps then
      if i + p.increment ≥ 2 ^ 31 then .ub else
      (fileName p.outfile p.steps (i + p.increment)).bind fun nm =>
      (timeLoop update p fuel (i + p.increment) (update g p.increment)).bind fun r =>
      .ok (r.map ((nm, update g p.increment) :: ·))
    else .ok (some [])

/-- What a run of the program comes to. -/
inductive Result (G : Type) where
  | help
  /-- `generate(dim, filename)` was called. -/
  | generated (dim : Int) (name : List Byte)
  /-- Simulation finished; the files written. -/
  | ran (files : List (List Byte × G))
  /-- Simulation not finished within the fuel. -/
  | running

/-- `include/MMSP.main.hpp` 128-351, the branch that runs a simulation; `file` is the content of the file named by an argument. -/
def simulate (load : Int → List Byte → Outcome G) (update : G → Int → G) (file : List Byte → Option (List Byte)) (fuel : Nat)
    (argv : List (List Byte)) : Outcome (Result G) :=
  (params argv).bind fun p =>
  match file (argv.getD 1 []) with
  | none => .abort (-1)
  | some content =>
    let l := getline content
    if l.1.take 4 ≠ ascii "grid" then .abort (-1) else
    match extractInt l.2 with
    | none => .ub
    | some (dim, _) =>
      (iterationsStart p.outfile).bind fun start =>
      if dim = 1 ∨ dim = 2 ∨ dim = 3 then
        (load dim content).bind fun g =>
        (timeLoop update p fuel start g).bind fun r => .ok (match r with | none => .running | some fs => .ran fs)
      else .ok (.ran [])

/-- `include/MMSP.main.hpp` 38-354. -/
def main (load : Int → List Byte → Outcome G) (update : G → Int → G) (file : List Byte → Option (List Byte)) (fuel : Nat)
    (argv : List (List Byte)) : Outcome (Result G) :=
  if argv.length < 2 then .abort (-1)
  else if argv.getD 1 [] = ascii "--help" then .ok .help
  else if argv.getD 1 [] = ascii "--example" then
    if argv.length < 3 ∨ argv.length > 4 then .abort (-1)
    else if ¬ allDigits (argv.getD 2 []) then .abort (-1)
    else (atoi (argv.getD 2 [])).bind fun dim =>
      .ok (.generated dim (if argv.length < 4 then ascii "example" else argv.getD 3 []))
  else simulate load update file fuel argv

end MMSP.Driver
