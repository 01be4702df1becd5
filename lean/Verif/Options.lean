import Verif.Tool
import Verif.Driver
import Mathlib.Data.Finset.Basic
import Mathlib.Data.Finset.Lattice.Basic
import Mathlib.Data.Rat.Defs
import Mathlib.Algebra.Field.Rat
/-!
# The command lines of `mmsp2png` and `mmsp2xyz`

Model of `utility/mmsp2png.cpp` 16-212 and `utility/mmsp2xyz.cpp` 28-140: from `argv` to the variables the exporters use.

Simplifications: printing is left out; arguments hold no null bytes. `atof` and the constants are parameters (`Num`). A `std::set` is the finite set of its elements.
An uncaught `std::out_of_range` and a failing assertion end the program with status 134.
-/

namespace MMSP.Options

open FileIO
open Tool (Prog)

/-- `double` as far as the command line needs it: `atof` and the constants of `utility/mmsp2png.cpp` 73-76, 93-94 (`utility/mmsp2xyz.cpp` 55). -/
structure Num (F : Type) where
  atof : List Byte → F
  zero : F
  one : F
  tolerance : F
  huge : F
  minusHuge : F

/-- The variables of `utility/mmsp2png.cpp` 68-79 and `utility/mmsp2xyz.cpp` 51-58. `out` is `pngindex` or `xyzindex`. -/
structure Opts (F : Type) where
  dat : Nat
  out : Nat
  mode : Nat
  normal : Bool
  invert : Bool
  coninv : Bool
  contol : F
  sliceaxis : Int
  slicelevel : Int
  zoomin : F
  zoomax : F
  lvlfield : Int
  fieldset : Finset Int
  levelset : Finset F
deriving DecidableEq

variable {F : Type} [DecidableEq F]

/-- Their initial values. -/
def Opts.init (num : Num F) : Opts F :=
  ⟨0, 0, 0, false, false, false, num.tolerance, -1, -1, num.zero, num.one, -1, ∅, ∅⟩

def comma : Byte := 44

/-- `strtok(s, ",")`: the token and what a further call with `NULL` continues with; `none` for a null pointer. -/
def strtok (s : List Byte) : Option (List Byte × List Byte) :=
  match s.dropWhile (· == comma) with
  | [] => none
  | c :: t => some ((c :: t).takeWhile (· != comma), ((c :: t).dropWhile (· != comma)).drop 1)

theorem strtok_length {s t r : List Byte} (h : strtok s = some (t, r)) : r.length < s.length := by
  rw [strtok] at h
  split at h
  · simp at h
  · rename_i c u e
    simp only [Option.some.injEq, Prod.mk.injEq] at h
    obtain ⟨-, rfl⟩ := h
    have h1 : (c :: u).length ≤ s.length := e ▸ (List.dropWhile_sublist _).length_le
    have hc : (c != comma) = true := by
      have := List.head?_dropWhile_not (· == comma) s
      rw [e] at this
      simpa using this
    have h2 : ((c :: u).dropWhile (· != comma)).length ≤ u.length := by
      rw [List.dropWhile_cons_of_pos (p := (· != comma)) hc]; exact (List.dropWhile_sublist _).length_le
    simp only [List.length_drop, List.length_cons] at *
    omega

/-- `while (ptr != NULL) { ...; ptr = strtok(NULL,","); }`: all tokens. -/
def tokens (s : List Byte) : List (List Byte) :=
  match _h : strtok s with
  | none => []
  | some (t, r) => t :: tokens r
termination_by s.length
decreasing_by exact strtok_length _h

/-- `s.substr(pos, n)`; beyond the end it throws. -/
def substr (s : List Byte) (pos n : Nat) : Outcome (List Byte) := if s.length < pos then .abort 134 else .ok ((s.drop pos).take n)

/-- `s[k]`; a null character at the end. -/
def charAt (s : List Byte) (k : Nat) : Byte := (s[k]?).getD 0

/-- `atof(ptr)` of the next token; a null pointer is undefined behaviour. -/
def atofToken (num : Num F) (s : List Byte) : Outcome (F × List Byte) :=
  match strtok s with
  | none => .ub
  | some (t, r) => .ok (num.atof t, r)

/-- `while (ptr != NULL) { fieldset.insert(atoi(ptr)); ... }` -/
def insertInts (set : Finset Int) (s : List Byte) : Outcome (Finset Int) :=
  (tokens s).foldlM (fun set t => (Driver.atoi t).bind fun n => .ok (insert n set)) set

/-- `utility/mmsp2png.cpp` 92-107 -/
def zoom (num : Num F) (o : Opts F) (flag : List Byte) : Outcome (Opts F) :=
  if flag.length = 6 ∨ charAt flag 6 ≠ 61 then .ok { o with zoomin := num.huge, zoomax := num.minusHuge }
  else
    (substr flag 7 255).bind fun val =>
    (atofToken num val).bind fun a =>
    (atofToken num a.2).bind fun b =>
    if strtok b.2 = none then .ok { o with zoomin := a.1, zoomax := b.1 } else .abort 134

/-- `utility/mmsp2png.cpp` 113-126 -/
def axisOf (c : Byte) (old : Int) : Int :=
  if c = 120 then 0 else if c = 121 then 1 else if c = 122 then 2
  else if c = 88 then 0 else if c = 89 then 1 else if c = 90 then 2 else old

/-- `utility/mmsp2png.cpp` 109-134 -/
def slice (o : Opts F) (flag : List Byte) : Outcome (Opts F) :=
  if flag.length = 7 ∨ charAt flag 7 ≠ 61 then .abort (-1)
  else
    let axis := axisOf (charAt flag 8) o.sliceaxis
    if axis = -1 then .abort (-1)
    else if flag.length > 10 then
      (substr flag 10 20).bind fun s => (Driver.atoi s).bind fun n => .ok { o with sliceaxis := axis, slicelevel := n }
    else .ok { o with sliceaxis := axis }

/-- `utility/mmsp2png.cpp` 138-149, `utility/mmsp2xyz.cpp` 68-79 -/
def contol (num : Num F) (o : Opts F) (flag : List Byte) : Outcome (Opts F) :=
  if flag.length = 8 ∨ charAt flag 8 ≠ 61 then .abort (-1)
  else
    (substr flag 10 255).bind fun val =>
    (atofToken num val).bind fun a =>
    if strtok a.2 = none then .ok { o with contol := a.1 } else .abort 134

/-- `utility/mmsp2png.cpp` 151-169, `utility/mmsp2xyz.cpp` 81-99 -/
def contour (num : Num F) (o : Opts F) (flag : List Byte) : Outcome (Opts F) :=
  if flag.length = 9 ∨ charAt flag 9 ≠ 61 then .abort (-1)
  else
    (substr flag 10 255).bind fun val =>
    match strtok val with
    | none => .ub
    | some (t, r) =>
      (Driver.atoi t).bind fun n =>
      if n = -1 then .abort (-1)
      else .ok { o with lvlfield := n, levelset := (tokens r).foldl (fun set t => insert (num.atof t) set) o.levelset }

/-- `utility/mmsp2png.cpp` 171-184, `utility/mmsp2xyz.cpp` 101-114 -/
def field (o : Opts F) (flag : List Byte) : Outcome (Opts F) :=
  if charAt flag 7 ≠ 61 then .abort (-1)
  else
    (substr flag 8 255).bind fun val => (insertInts o.fieldset val).bind fun set => .ok { o with mode := max 2 o.mode, fieldset := set }

/-- `utility/mmsp2png.cpp` 186-199, `utility/mmsp2xyz.cpp` 116-129 -/
def exclude (o : Opts F) (flag : List Byte) : Outcome (Opts F) :=
  if flag.length = 9 ∨ charAt flag 9 ≠ 61 then .abort (-1)
  else
    (substr flag 10 255).bind fun val => (insertInts o.fieldset val).bind fun set => .ok { o with mode := max 3 o.mode, fieldset := set }

/-- `".png"`, `".xyz"` -/
def ext (tool : Prog) : List Byte := if tool = .png then ascii ".png" else ascii ".xyz"

/-- One argument: `utility/mmsp2png.cpp` 83-204 (`tool = .png`), `utility/mmsp2xyz.cpp` 62-134 (`tool = .xyz`). -/
def option (tool : Prog) (num : Num F) (o : Opts F) (i : Nat) (flag : List Byte) : Outcome (Opts F) :=
  if flag = ascii "--mag" then .ok { o with mode := max 1 o.mode }
  else if tool = .xyz ∧ flag = ascii "--normal" then .ok { o with normal := true }
  else if tool = .png ∧ flag = ascii "--invert" then .ok { o with invert := true }
  else if tool = .png ∧ flag.take 6 = ascii "--zoom" then zoom num o flag
  else if tool = .png ∧ flag.take 7 = ascii "--slice" then slice o flag
  else if tool = .png ∧ flag.take 8 = ascii "--coninv" then .ok { o with coninv := true }
  else if flag.take 8 = ascii "--contol" then contol num o flag
  else if flag.take 9 = ascii "--contour" then contour num o flag
  else if flag.take 7 = ascii "--field" then field o flag
  else if flag.take 9 = ascii "--exclude" then exclude o flag
  else if WrongEndian.finds (ext tool) flag then .ok { o with out := i }
  else .ok { o with dat := i }

/-- The loop over the arguments: `utility/mmsp2png.cpp` 82-205, `utility/mmsp2xyz.cpp` 61-135. -/
def parse (tool : Prog) (num : Num F) (args : List (List Byte)) : Outcome (Opts F) :=
  (args.zipIdx 1).foldlM (fun o a => option tool num o a.2 a.1) (Opts.init num)

/-- `utility/mmsp2png.cpp` 19-66, 82-212, `utility/mmsp2xyz.cpp` 31-140: the whole front end on the arguments without the program's name. -/
def commandLine (tool : Prog) (num : Num F) (args : List (List Byte)) : Outcome (Opts F) :=
  match args with
  | [] => .abort (-1)
  | a :: _ =>
    if a = ascii "--help" then .abort 0
    else (parse tool num args).bind fun o => if o.dat = 0 then .abort (-1) else .ok o

/-- What `atof` makes of numbers without exponent: white space, sign, digits, a point and digits. -/
def decimal (s : List Byte) : ℚ :=
  let p := splitSign (s.dropWhile isSpace)
  let whole := p.2.takeWhile isDigit
  let rest := p.2.dropWhile isDigit
  let frac := if rest.head? = some Tool.dot then (rest.drop 1).takeWhile isDigit else []
  let v : ℚ := (digitsVal whole : ℚ) + (digitsVal frac : ℚ) / 10 ^ frac.length
  if p.1 then -v else v

end MMSP.Options
