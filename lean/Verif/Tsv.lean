import Verif.Stencil
import Verif.Sparse
import Verif.FileHeader
/-!
# Tables of tab-separated values

Model of `convert_scalars`, `convert_vectors` and `convert_sparses` of `utility/mmsp2tsv.cpp` (574-672). The three branches for one, two and three dimensions are the same text.

Simplifications. The texts of numbers are parameters: `coord d k` is what `tsvfil << dx(GRID,d)*k` writes, `fmt v` what `tsvfil << v` writes. Reading the file is in `FileHeader.lean`,
the choice of the branch in `Tool.lean`. The tool is a serial program, so that there are no ghosts.
-/

namespace MMSP.Tsv

open FileIO (newline)

def tab : Byte := 9

variable {T : Type}

/-- One line, `utility/mmsp2tsv.cpp` 578-582 (628-634, 660-666): coordinates, then the values. -/
def row (coord : Nat → Int → List Byte) (dim : Nat) (x : Nat → Int) (values : List (List Byte)) : List Byte :=
  coord 0 (x 0) ++ ((List.range' 1 (dim - 1)).flatMap fun d => tab :: coord d (x d)) ++ (values.flatMap fun v => tab :: v) ++ [newline]

/-- `utility/mmsp2tsv.cpp` 582: the value of a number cell. -/
def scalarValues (fmt : T → List Byte) (c : T) : Outcome (List (List Byte)) := .ok [fmt c]

/-- `utility/mmsp2tsv.cpp` 613-614: `fields(GRID)` components of a vector cell. -/
def vectorValues (fmt : T → List Byte) (fields : Nat) (c : List T) : Outcome (List (List Byte)) :=
  (List.range fields).mapM fun i => (Stencil.elem c i).bind fun v => .ok (fmt v)

/-- `utility/mmsp2tsv.cpp` 648-649: index and value of every entry of a sparse cell. -/
def sparseValues (fmtIndex : Int → List Byte) (fmt : T → List Byte) (c : Sparse.Cell T) : Outcome (List (List Byte)) :=
  .ok (c.flatMap fun e => [fmtIndex e.1, fmt e.2])

/-- `utility/mmsp2tsv.cpp` 574-601 (603-636, 638-672): one line per node. -/
def convert (coord : Nat → Int → List Byte) (g : Shape) (values : T → Outcome (List (List Byte))) (data : Int → T) : Outcome (List Byte) :=
  (List.range g.nodes.toNat).foldlM (fun (out : List Byte) (n : Nat) => do
    let c ← deref g data (g.atNode .serial n)
    let vs ← values c
    pure (out ++ row coord g.dim (g.position n) vs)) []

end MMSP.Tsv
