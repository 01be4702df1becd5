import Verif.Decomp
import Verif.Outcome
/-!
# `int` arithmetic of `setup()` and of element access, with overflow

`Verif.Index`, `Verif.Decomp` and `Verif.Boundary` compute in unbounded integers. This file models the same lines of
`include/MMSP.grid.cpp` (141-317, 368-411), `include/MMSP.utility.h` (50-59) and `include/MMSP.utility.cpp` (42-57)
with 32-bit `int`: the result of every `+`, `-`, `*` on `int` operands is checked, a result that does not fit is
undefined behaviour (C++ [expr.pre]), and so is a division by zero.
Assumption: `int` has 32 bits (every platform the makefiles name). C arrays of length `dim` that are computed here are
lists; arrays that are only read are functions read below `dim`.
-/

namespace MMSP.Overflow

/-- The values of a 32-bit `int`. -/
def InInt (z : Int) : Prop := -2147483648 ≤ z ∧ z ≤ 2147483647

instance (z : Int) : Decidable (InInt z) := inferInstanceAs (Decidable (_ ∧ _))

/-- The result of a signed addition, subtraction or multiplication whose exact value is `z`. -/
def chk (z : Int) : Outcome Int := if InInt z then .ok z else .ub

/-- The result of a signed division. -/
def quot (a b : Int) : Outcome Int := if b = 0 then .ub else chk (a.tdiv b)

/-- The result of a signed remainder; `a % b` is undefined exactly when `a / b` is. -/
def rmd (a b : Int) : Outcome Int := if b = 0 then .ub else if InInt (a.tdiv b) then .ok (a.tmod b) else .ub

/-! ## Slice sizes, cells and nodes -/

/-- `p = 1; for j in l: p *= (hi[j] - lo[j])`, the loops of `include/MMSP.grid.cpp` 185-190 and 306-313. -/
def widthProd (hi lo : Nat → Int) (l : List Nat) : Outcome Int :=
  l.foldlM (fun p j => do
    let w ← chk (hi j - lo j)
    chk (p * w)) 1

/-- Indices `i+1 .. dim-1`. -/
def after (d i : Nat) : List Nat := (List.range d).filter fun j => decide (i < j)

/-- What `include/MMSP.grid.cpp` 301-317 stores. -/
structure Sizes where
  s0 : List Int
  s1 : List Int
  sx : List Int
  xx : List Int
  cells : Int
  nodes : Int
  deriving DecidableEq

/-- `include/MMSP.grid.cpp` 301-317 -/
def sizes (g : Shape) : Outcome Sizes := do
  let s0 ← (List.range g.dim).mapM fun i => chk (g.x0 i - g.ghosts)
  let s1 ← (List.range g.dim).mapM fun i => chk (g.x1 i + g.ghosts)
  let sx ← (List.range g.dim).mapM fun i => widthProd (fun j => s1.getD j 0) (fun j => s0.getD j 0) (after g.dim i)
  let xx ← (List.range g.dim).mapM fun i => widthProd g.x1 g.x0 (after g.dim i)
  let w ← chk (s1.getD 0 0 - s0.getD 0 0)
  let cells ← chk (sx.getD 0 0 * w)
  let v ← chk (g.x1 0 - g.x0 0)
  let nodes ← chk (xx.getD 0 0 * v)
  pure ⟨s0, s1, sx, xx, cells, nodes⟩

/-! ## Digit loops -/

/-- `for j: n = t / w[j]; out[j] = ...n...; t -= n * w[j]` (`include/MMSP.grid.cpp` 202-209, 246-250, 389-393,
405-409), started with `t = n`; the list of the values stored. -/
def digits (d : Nat) (w : Nat → Outcome Int) (out : Nat → Int → Outcome Int) (n : Int) : Outcome (List Int) := do
  let r ← (List.range d).foldlM (fun (s : Int × List Int) j => do
    let v ← w j
    let q ← quot s.1 v
    let x ← out j q
    let m ← chk (q * v)
    let t ← chk (s.1 - m)
    pure (t, s.2 ++ [x])) (n, [])
  pure r.2

/-- `i = 0; for j: i += (x[j] - s0[j]) * sx[j]` (`include/MMSP.grid.cpp` 394-396). -/
def accumulate (d : Nat) (x s0 sx : Nat → Int) : Outcome Int :=
  (List.range d).foldlM (fun i j => do
    let a ← chk (x j - s0 j)
    let m ← chk (a * sx j)
    chk (i + m)) 0

/-- `include/MMSP.grid.cpp` 402-411, `position(int)`. -/
def position (g : Shape) (i : Int) : Outcome (List Int) :=
  digits g.dim (fun j => .ok (g.xx j)) (fun j n => chk (n + g.x0 j)) i

/-- `include/MMSP.grid.cpp` 385-400, `operator()(int)`. -/
def atNode (g : Shape) (bd : Build) (i : Int) : Outcome Int :=
  match bd with
  | .serial => .ok i
  | .mpi => do
    let x ← digits g.dim (fun j => .ok (g.xx j)) (fun j n => chk (n + g.x0 j)) i
    accumulate g.dim (fun j => x.getD j 0) g.s0 g.sx

/-- `include/MMSP.utility.cpp` 42-57, `check_boundary`. -/
def checkBoundary (bd : Build) (x x0 x1 : Int) (b0 b1 : BC) : Outcome Int :=
  if x < x0 then
    if b0 = .neumann ∨ b0 = .dirichlet then .ok x0
    else if bd = .serial ∧ b0 = .periodic then do
      let a ← chk (x0 - x)
      chk (x1 - a)
    else if b0 = .mirror then do
      let a ← chk (2 * x0)
      chk (a - x)
    else .ok x
  else if x ≥ x1 then
    if b1 = .neumann ∨ b1 = .dirichlet then chk (x1 - 1)
    else if bd = .serial ∧ b1 = .periodic then do
      let a ← chk (x - x1)
      chk (x0 + a)
    else if b1 = .mirror then do
      let a ← chk (x1 - 1)
      let b ← chk (2 * a)
      chk (b - x)
    else .ok x
  else .ok x

/-- Pointer arithmetic `p + n` inside an array of `cells` elements: the result may be at most one past the end
(C++ [expr.add]). -/
def advance (g : Shape) (p n : Int) : Outcome Int := if 0 ≤ p + n ∧ p + n ≤ g.cells then .ok (p + n) else .ub

/-- One subscript: `check_boundary` and `data + (x - s0[i]) * sx[i]` (`include/MMSP.grid.cpp` 370-371 and 378-380,
`include/MMSP.utility.h` 50-54). -/
def subscript (g : Shape) (bd : Build) (p : Int) (i : Nat) (x : Int) : Outcome Int := do
  let y ← checkBoundary bd x (g.x0 i) (g.x1 i) (g.b0 i) (g.b1 i)
  let a ← chk (y - g.s0 i)
  let m ← chk (a * g.sx i)
  advance g p m

/-- `include/MMSP.grid.cpp` 375-383, `operator()(vector<int>)`. -/
def atVec (g : Shape) (bd : Build) (x : Nat → Int) : Outcome Int :=
  (List.range g.dim).foldlM (fun p i => subscript g bd p i (x i)) 0

/-! ## Domain decomposition -/

/-- `include/MMSP.grid.cpp` 211-214: the product of the factors of a combination. -/
def product (d : Nat) (f : Nat → Int) : Outcome Int := (List.range d).foldlM (fun p j => chk (p * f j)) 1

/-- `include/MMSP.grid.cpp` 218-220: the ghost area of a combination. -/
def testArea (d : Nat) (area f : Nat → Int) : Outcome Int :=
  (List.range d).foldlM (fun t j => do
    let a ← chk (1 + f j)
    let m ← chk (area j * a)
    chk (t + m)) 0

/-- `include/MMSP.grid.cpp` 201-227, one iteration of the loop over the combinations; `fac` is the array of factors.
An index outside that array is undefined behaviour. -/
def chooseStep (np : Int) (d : Nat) (fac : List Int) (area : Nat → Int) (s : Int × List Int) (i : Nat) :
    Outcome (Int × List Int) := do
  let combo ← digits d (fun j => product (after d j).length fun _ => fac.length) (fun _ q => .ok q) i
  if combo.all fun c => decide (0 ≤ c) && decide (c < fac.length) then do
    let f : Nat → Int := fun j => fac.getD (combo.getD j 0).toNat 0
    let p ← product d f
    if p = np then do
      let test ← testArea d area f
      if test < s.1 ∨ s.1 < 0 then pure (test, (List.range d).map f) else pure s
    else pure s
  else .ub

/-- `include/MMSP.grid.cpp` 171-228: the process grid `p1`. The counter of the loops at 172 and 178 ends at `np + 1`;
the products `(np / i) * i` there are at most `np`. -/
def choose (np d : Nat) (g0 g1 : Nat → Int) : Outcome (List Int) := do
  let _ ← chk (np + 1)
  let area ← (List.range d).mapM fun i => widthProd g1 g0 ((List.range d).filter fun j => i ≠ j)
  let ncom ← product d fun _ => (Decomp.factors np).length
  let r ← (List.range ncom.toNat).foldlM
    (chooseStep np d (Decomp.factors np) fun j => area.getD j 0) (-1, (List.range d).map fun _ => 1)
  pure r.2

/-- `include/MMSP.grid.cpp` 252-271 -/
def axisLimits (g0 g1 p pos : Int) : Outcome (Int × Int) := do
  let w ← chk (g1 - g0)
  let nom ← quot w p
  let w' ← chk (g1 - g0)
  let pn ← chk (p * nom)
  let rem ← chk (w' - pn)
  let kn ← chk (pos * nom)
  let x0 ← chk (g0 + kn)
  let x1 ← chk (x0 + nom)
  if rem > 0 then
    if pos < rem then do
      let y0 ← chk (x0 + pos)
      let y ← chk (y0 + nom)
      let y1 ← chk (y + 1)
      pure (y0, y1)
    else if pos = rem then do
      let y0 ← chk (x0 + pos)
      let y1 ← chk (y0 + nom)
      pure (y0, y1)
    else do
      let y0 ← chk (x0 + rem)
      let y1 ← chk (y0 + nom)
      pure (y0, y1)
  else pure (x0, x1)

/-- `n = 0; for j: n += sp[j] * npos[j]` (`include/MMSP.grid.cpp` 282-284, 288-290). -/
def rankOf (d : Nat) (sp npos : Nat → Int) : Outcome Int :=
  (List.range d).foldlM (fun n j => do
    let m ← chk (sp j * npos j)
    chk (n + m)) 0

/-- `include/MMSP.grid.cpp` 274-291: the neighbours of axis `i`. -/
def neighbours (d : Nat) (sp p1 pos : Nat → Int) (i : Nat) : Outcome (Int × Int) := do
  let a ← chk (pos i - 1)
  let b ← chk (a + p1 i)
  let k0 ← rmd b (p1 i)
  let n0 ← rankOf d sp fun j => if j = i then k0 else pos j
  let c ← chk (pos i + 1)
  let k1 ← rmd c (p1 i)
  let n1 ← rankOf d sp fun j => if j = i then k1 else pos j
  pure (n0, n1)

/-- What `setup()` stores on one rank: process grid, local limits, neighbours and sizes. -/
structure Setup where
  p1 : List Int
  lim : List (Int × Int)
  nb : List (Int × Int)
  sizes : Sizes
  deriving DecidableEq

/-- `include/MMSP.grid.cpp` 141-317 with `SINGLE == false` on rank `rank` of `np`. The three loops at 244-272 are
written as two (all positions, then all limits); nothing is observable in between. -/
def setup (d : Nat) (g0 g1 : Nat → Int) (ghosts : Int) (np : Nat) (rank : Int) : Outcome Setup := do
  let p1 ← choose np d g0 g1
  let sp ← (List.range d).mapM fun i => product' p1 (after d i)
  let pos ← digits d (fun j => .ok (sp.getD j 0)) (fun _ q => .ok q) rank
  let lim ← (List.range d).mapM fun i => axisLimits (g0 i) (g1 i) (p1.getD i 0) (pos.getD i 0)
  let nb ← (List.range d).mapM fun i =>
    neighbours d (fun j => sp.getD j 0) (fun j => p1.getD j 0) (fun j => pos.getD j 0) i
  let sz ← sizes
    { dim := d, x0 := fun i => (lim.getD i (0, 0)).1, x1 := fun i => (lim.getD i (0, 0)).2,
      b0 := fun i => if (lim.getD i (0, 0)).1 ≠ g0 i then .parallel else .periodic,
      b1 := fun i => if (lim.getD i (0, 0)).2 ≠ g1 i then .parallel else .periodic, ghosts := ghosts }
  pure ⟨p1, lim, nb, sz⟩
where
  /-- `include/MMSP.grid.cpp` 237-241 -/
  product' (p1 : List Int) (l : List Nat) : Outcome Int := l.foldlM (fun p j => chk (p * p1.getD j 0)) 1

/-! ## Two's complement

What the code computes when the compiler lets `int` wrap around (for example `gcc -fwrapv`). -/

/-- Reduction modulo `2^32` into the range of `int`. -/
def wrap (z : Int) : Int := (z + 2147483648) % 4294967296 - 2147483648

/-- `include/MMSP.grid.cpp` 184-228 with wrapping arithmetic. -/
def chooseWrap (np d : Nat) (g0 g1 : Nat → Int) : List Int :=
  let area := fun i => ((List.range d).filter fun j => i ≠ j).foldl (fun p j => wrap (p * wrap (g1 j - g0 j))) 1
  ((List.range ((Decomp.factors np).length ^ d)).foldl (fun (s : Int × List Int) i =>
    let f := Decomp.comboFactor np d i
    if (List.range d).foldl (fun p j => wrap (p * f j)) 1 = np then
      let test := (List.range d).foldl (fun t j => wrap (t + wrap (area j * (1 + f j)))) 0
      if test < s.1 ∨ s.1 < 0 then (test, (List.range d).map f) else s
    else s) (-1, (List.range d).map fun _ => 1)).2

end MMSP.Overflow
