import Verif.Generators
import Mathlib.Algebra.Order.Floor.Ring
import Mathlib.Data.Rat.Floor
/-!
# Where the seeds come from

Model of `algorithms/generators.cpp` 450-479 (`seeds_from_poisson_process`), 481-502 (`seeds_to_file`), 504-545 (`seeds_from_file`), 547-574 (`honeycomb_seeds`), each up to
the call of `seedswap`, and of `algorithms/tessellate.hpp` 527-564 (`seeds_from_file`).

Simplifications: real arithmetic is exact. A file is the list of its numbers (the first one is the dimension), and whether white space follows the last one; words that are not numbers are
not modelled. For `tessellate.hpp` it is the list of its lines, each the list of its numbers. `seeds[id]` stands for `seeds`.
-/

namespace MMSP.Generators

open MMSP.Tessellate (Seed whileLoop)

/-! ## Random seeds -/

/-- `v[d] = a` for a vector of three entries. -/
def setSeed (s : Seed) (d : Nat) (a : Int) : Seed :=
  match d with
  | 0 => { s with x := a }
  | 1 => { s with y := a }
  | _ => { s with z := a }

/-- `algorithms/generators.cpp` 469-475: the local seeds. `draw k n` is what the `k`-th call of the generator, `randInt(n)`, returns. -/
def poissonSeeds (dim : Nat) (g0 g1 : Nat → Int) (nseeds : Nat) (draw : Nat → Int → Int) : List Seed :=
  ((List.range nseeds).foldl (fun (st : List Seed × Seed) i =>
    let s := (List.range dim).foldl (fun s d => setSeed s d (g0 d + draw (dim * i + d) (g1 d - g0 d - 1))) st.2
    (st.1 ++ [s], s)) ([], ⟨0, 0, 0⟩)).1

/-! ## Seed files -/

/-- `std::fixed` with precision 6: the number that stands in the file. -/
def six (q : ℚ) : ℚ := (⌊q * 10 ^ 6 + 1 / 2⌋ : ℚ) / 10 ^ 6

/-- Conversion of a `double` to `int`. -/
def toInt (q : ℚ) : Outcome Int :=
  let n := if 0 ≤ q then ⌊q⌋ else ⌈q⌉
  if -2 ^ 31 ≤ n ∧ n < 2 ^ 31 then .ok n else .ub

/-- What an input stream can still deliver, and `good()`. -/
structure Stream where
  tokens : List ℚ
  white : Bool
  good : Bool

/-- `input >> s`: without effect if the stream is not good. At the end of the file, after white space, `s` keeps its value; a number that ends with the file sets the end-of-file bit. -/
def Stream.read (st : Stream) (s : Option ℚ) : Stream × Option ℚ :=
  if st.good then
    match st.tokens with
    | [] => ({ st with good := false }, s)
    | v :: ts => ({ st with tokens := ts, good := st.white || !ts.isEmpty }, some v)
  else (st, s)

/-- `algorithms/generators.cpp` 488-498: the numbers `seeds_to_file` writes. Every line ends with a tab and a newline. -/
def seedsToFile (dim : Nat) (g0 g1 : Nat → Int) (seeds : List Seed) : Stream :=
  ⟨(dim : ℚ) :: seeds.flatMap fun s => (List.range dim).map fun d => six (((s.at d - g0 d : Int) : ℚ) / ((g1 d - g0 d : Int) : ℚ)), true, true⟩

/-- The variables of the loop of `seeds_from_file`. -/
structure Reading where
  stream : Stream
  s : Option ℚ
  seed : Seed
  seeds : List Seed

/-- `algorithms/generators.cpp` 530-538: one coordinate. An uninitialised `s` is undefined behaviour. -/
def readCoord (g0 g1 : Nat → Int) (r : Reading) (d : Nat) : Outcome Reading :=
  let (stream, s) := r.stream.read r.s
  match s with
  | none => .ub
  | some v =>
    if v > 10001 / 10000 then .abort (-1) else
    (toInt ((g0 d : ℚ) + ((g1 d - g0 d - 1 : Int) : ℚ) * v)).bind fun n => .ok { r with stream := stream, s := s, seed := setSeed r.seed d n }

/-- `algorithms/generators.cpp` 529-543: one pass of the loop. -/
def readSeed (dim : Nat) (x0 x1 g0 g1 : Nat → Int) (r : Reading) : Outcome (Option Reading) :=
  ((List.range dim).foldlM (readCoord g0 g1) r).bind fun r =>
  .ok (some (if (List.range dim).all fun d => !(decide (r.seed.at d < x0 d) || decide (r.seed.at d ≥ x1 d)) then { r with seeds := r.seeds ++ [r.seed] } else r))

/-- `algorithms/generators.cpp` 504-543: `seeds[id]` before the exchange. -/
def seedsFromFile (dim : Nat) (x0 x1 g0 g1 : Nat → Int) (file : Stream) (fuel : Nat) : Outcome (Option (List Seed)) :=
  match file.read none with
  | (file, some d) =>
    if d ≠ dim then .abort (-1) else
    (whileLoop (fun r => r.stream.good) (readSeed dim x0 x1 g0 g1) fuel ⟨file, none, ⟨0, 0, 0⟩, []⟩).bind fun r => .ok (r.map Reading.seeds)
  | (_, none) => .ub

/-- `algorithms/tessellate.hpp` 547-548: one coordinate from a line, whose numbers are `ln`. At the end of the line `x` keeps its value; an uninitialised `x` is undefined behaviour. -/
def lineCoord (g0 g1 : Nat → Int) (ln : List ℚ) (st : Seed × Option ℚ) (d : Nat) : Outcome (Seed × Option ℚ) :=
  match ln[d]?.or st.2 with
  | none => .ub
  | some v => (toInt (((g1 d - g0 d : Int) : ℚ) * v)).bind fun n => .ok (setSeed st.1 d (g0 d + n), some v)

/-- `algorithms/tessellate.hpp` 544-549: the seed of one line. -/
def lineSeed (dim : Nat) (g0 g1 : Nat → Int) (s : Seed) (ln : List ℚ) : Outcome Seed :=
  ((List.range dim).foldlM (lineCoord g0 g1 ln) (s, none)).bind fun st => .ok st.1

/-- `algorithms/tessellate.hpp` 541-561: all lines; which of them are kept in parallel is `Tessellate.localSeeds`. -/
def linesSeeds (dim : Nat) (g0 g1 : Nat → Int) (lines : List (List ℚ)) : Outcome (List Seed) :=
  (lines.foldlM (fun (st : List Seed × Seed) ln => (lineSeed dim g0 g1 st.2 ln).bind fun s => .ok (st.1 ++ [s], s)) ([], ⟨0, 0, 0⟩)).bind fun st => .ok st.1

/-! ## Honeycombs -/

/-- `for (c = start; c < stop; c += a)`, for positive `a`. -/
def ladder (start stop : Int) (a : Nat) : List Int :=
  if 0 < a ∧ start < stop then start :: ladder (start + a) stop a else []
termination_by (stop - start).toNat
decreasing_by omega

/-- `algorithms/generators.cpp` 564-568: the rows from `offset` on. -/
def rows (x0 x1 : Int) (a : Nat) : Bool → List Int → List Seed
  | _, [] => []
  | offset, y :: ys => (ladder ((x0 + a).tmod a + (if offset then (a : Int) else 0).tdiv 2) x1 a).map (fun x => ⟨x, y, 0⟩) ++ rows x0 x1 a (!offset) ys

/-- `algorithms/generators.cpp` 561-572 for `a ≥ 0`: `seeds[id]` before the exchange. -/
def honeycombSeeds (dim : Nat) (x0 x1 : Nat → Int) (a : Nat) : Outcome (List Seed) :=
  if dim = 2 then
    if a / 2 = 0 then .ub else
    .ok (rows (x0 0) (x1 0) a (decide (0 < (x0 0 + a).tmod (a / 2 : Nat))) (ladder ((x0 1 + a).tmod a) (x1 1) a))
  else .abort (-1)

end MMSP.Generators
