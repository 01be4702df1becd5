# Formal model of MMSP: design

Repository modelled: mesoscale/mmsp as found in `/repo` (read as text, never built or run).
Prover: Lean 4.33.0 (Lake project in `lean/`), single Mathlib modules imported where needed.
Sections 4.1, 7 and 8 are generated from the Lean files, `MANIFEST.json` and the built library; the rest is written by hand.

## 1. Layout

* `lean/Verif/<Topic>.lean`: executable model of a part of the code. Every definition cites file and lines.
* `lean/Verif/<Topic>Lemmas.lean`: helper lemmas, when there are many.
* `lean/Verif/<Topic>Props.lean` (and `<Topic>Run`, `<Topic>Hang`, ...): the property theorems named in `MANIFEST.json`. The specification they use (what a torus neighbour is,
  what a simplex is, what a picture shows) is defined there, next to the theorems and independently of the model functions. Each group of theorems ends with `example`s that
  instantiate the hypotheses by a concrete non-trivial case.
* `properties.jsonl`: the properties C01, C02, ... in terms of observable behaviour.
* `MANIFEST.json`: property -> status and theorem names.
* `seeded/LOG.jsonl`: wrong programs and the theorems that reject them.

Model, specification and theorems of one topic share a namespace `MMSP.<Topic>`.

## 2. Modelling conventions

* C++ `int` is `Int` (no overflow) unless a property is about machine words. Overflow of the index arithmetic is treated separately (`Overflow`, C58), 32-bit words of the
  random number generator are `BitVec 32` (C36), bytes are `BitVec 8`.
* `/` and `%` on `int` are `Int.tdiv` and `Int.tmod`.
* Arrays of coordinates are functions `Nat -> Int` of which only entries below `dim` are read. Data arrays are functions `Int -> T`; every access goes through `deref`/`store`,
  which give `Outcome.ub` outside `[0, cells)`.
* Loops are folds, structural recursion, or fuelled recursion when termination is itself in question. A hang is stated as "for no amount of fuel a result".
* Undefined behaviour, aborts (assertions, `exit`) and hangs are outcomes of the model (`Outcome.ub`, `Outcome.abort c`, `none`), never silently totalised. A theorem
  `f x = .ok y` therefore includes that nothing undefined happens on the way.
* Assertions are active (as in a build without `NDEBUG`).
* Floating point is exact arithmetic in an arbitrary field (ordered field, or the reals when `sqrt`, `log`, `tan` matter). Where a program
  prints or stores numbers in decimal (TSV, header), the text form is a parameter. Only C95 has rounding: there every operation is rounded to nearest, ties to even, to a given
  number of binary digits with an unbounded exponent.
* zlib is a pair of parameters with the single assumed law that uncompressing the compressed block gives it back. Nothing is assumed about compressed lengths (this is what makes
  C16 a finding).
* MPI point-to-point calls are reliable and ordered per (source, destination). Scheduling is arbitrary: C11, C18 and C26 are stated for every interleaving.
* `memcpy` of an object of type `T` is a codec of fixed width with `dec (enc t) = t`.
* The heap of vectors and sparse cells (C23-C25) has block identities, allocated/freed state and lengths; elsewhere vectors and sparse cells are values. `Heap.history_correct` (every
  history of allowed operations leaves every vector holding what the plain-sequence meaning says) is what justifies this.
* `rand()` and the Mersenne twister, where used by another program, are arbitrary streams; theorems quantify over all streams. Only C94 is about probabilities: there the numbers are
  independent and uniform on `0..RAND_MAX`, and probabilities are shares of the sequences of draws.

## 3. Trusted base

* The Lean kernel. Axioms at most `propext`, `Classical.choice`, `Quot.sound` (section 7, per theorem).
* Faithfulness of the transcription of the cited lines. No code is executed here. The mutation runs in `seeded/LOG.jsonl` show that the theorems depend on the transcription,
  not that the transcription is right.
* The assumptions of section 2 on zlib, MPI, `memcpy` and exact arithmetic.
* That the two builds (with and without `MPI_VERSION`) are told apart by the parameter `Build`.

## 4. What is modelled and what is not

Modelled: boundary conditions; storage layout and access; domain decomposition, neighbours and boundary flags; ghost exchange (plain, sublattice) on the level of single messages;
byte buffers of cells and regions; file format, reading and writing, in serial, in parallel and aggregated; vector, sparse and scalar cells as values and (vector, sparse) on the
heap; whole-grid operations; reductions; stencils; the driver program; update loops in serial and MPI builds; the export tools (front ends, PNG values, TSV, VTK, topology), byte
order conversion and grid converters; whole runs of several sessions (read, update, write) on changing numbers of ranks; voxel files and the stand-alone compressor; Mersenne twister, priority queue, tessellation, generators of seeds; and the update and initialisation functions of all examples.

Not modelled:

* rounding of floating point outside C95; overflow, underflow, NaN and infinities;
* text parsing below the level of "the number printed is the number read" (`operator>>`, `atof`, locales), file system errors, memory exhaustion;
* drawing of contour lines in `mmsp2png` for vectors and of surfaces in `mmsp2xyz` beyond the marking rule;
* PNG and VTK encoding (libpng, VTK classes are sinks that receive the array that is modelled);
* BlueGene-specific code paths other than the aggregation arithmetic, timing and progress output;
* C++ overload resolution and template instantiation: findings of the form "does not compile" are observations from reading, not theorems;
* the one-line accessors of `MMSP.grid.h`, `MMSP.vector.h`, `MMSP.sparse.h`, `MMSP.scalar.h` that only forward to members;
* the MPI branch of `approximate_voronoi` in `algorithms/generators.cpp`, the unit test suite, Makefiles and documentation.

### 4.1 Lines cited by model definitions and theorems, per file

Generated from the citations in the Lean files. Files without citations are not modelled.

| file | lines | cited |
|------|-------|-------|
| algorithms/MersenneTwister.h | 461 | 345 |
| algorithms/evolvers.cpp | 89 | 72 |
| algorithms/generators.cpp | 603 | 439 |
| algorithms/grainsize.hpp | 119 | 26 |
| algorithms/priority_queue.h | 142 | 75 |
| algorithms/tessellate.hpp | 603 | 511 |
| algorithms/topology/point.hpp | 105 | 98 |
| algorithms/topology/topology.cpp | 264 | 257 |
| algorithms/topology/topology.hpp | 121 | 98 |
| examples/beginners_diffusion/1stDiffusion.cpp | 50 | 30 |
| examples/beginners_diffusion/MMSPDiffusion.cpp | 55 | 28 |
| examples/beginners_diffusion/MMSPDiffusion2D.cpp | 70 | 35 |
| examples/coarsening/grain_growth/anisotropic/Monte_Carlo/graingrowth.cpp | 381 | 360 |
| examples/coarsening/grain_growth/anisotropic/phase_field/anisotropy.hpp | 56 | 18 |
| examples/coarsening/grain_growth/anisotropic/phase_field/graingrowth.cpp | 196 | 183 |
| examples/coarsening/grain_growth/anisotropic/sparsePF/anisotropy.hpp | 56 | 46 |
| examples/coarsening/grain_growth/anisotropic/sparsePF/graingrowth.cpp | 193 | 177 |
| examples/coarsening/grain_growth/isotropic/Monte_Carlo/graingrowth.cpp | 377 | 356 |
| examples/coarsening/grain_growth/isotropic/phase_field/graingrowth.cpp | 194 | 182 |
| examples/coarsening/grain_growth/isotropic/sparsePF/graingrowth.cpp | 126 | 110 |
| examples/coarsening/ostwald_ripening/isotropic/phase_field/ostwald.cpp | 130 | 84 |
| examples/coarsening/zener_pinning/anisotropic/Monte_Carlo/anisotropy.hpp | 56 | 18 |
| examples/coarsening/zener_pinning/anisotropic/Monte_Carlo/zener.cpp | 214 | 194 |
| examples/coarsening/zener_pinning/anisotropic/phase_field/anisotropy.hpp | 56 | 18 |
| examples/coarsening/zener_pinning/anisotropic/phase_field/zener.cpp | 209 | 183 |
| examples/coarsening/zener_pinning/anisotropic/sparsePF/anisotropy.hpp | 56 | 18 |
| examples/coarsening/zener_pinning/anisotropic/sparsePF/zener.cpp | 207 | 184 |
| examples/coarsening/zener_pinning/isotropic/Monte_Carlo/zener.cpp | 209 | 193 |
| examples/coarsening/zener_pinning/isotropic/phase_field/zener.cpp | 150 | 137 |
| examples/coarsening/zener_pinning/isotropic/sparsePF/zener.cpp | 171 | 159 |
| examples/differential_equations/elliptic/Poisson/multigrid.hpp | 216 | 203 |
| examples/differential_equations/elliptic/Poisson/poisson.cpp | 254 | 192 |
| examples/phase_transitions/allen-cahn/allen-cahn.cpp | 81 | 55 |
| examples/phase_transitions/cahn-hilliard/convex_splitting/cahn-hilliard.cpp | 468 | 423 |
| examples/phase_transitions/cahn-hilliard/explicit/cahn-hilliard.cpp | 87 | 37 |
| examples/phase_transitions/model_A/model_A.cpp | 111 | 59 |
| examples/phase_transitions/model_B/model_B.cpp | 117 | 66 |
| examples/phase_transitions/solidification/anisotropic/anisotropy.hpp | 56 | 18 |
| examples/phase_transitions/solidification/anisotropic/solidification.cpp | 173 | 128 |
| examples/phase_transitions/spinodal/spinodal.cpp | 113 | 62 |
| examples/statistical_mechanics/Heisenberg/heisenberg.cpp | 151 | 109 |
| examples/statistical_mechanics/Heisenberg/heisenberg.hpp | 11 | 3 |
| examples/statistical_mechanics/Ising/ising.cpp | 130 | 86 |
| examples/statistical_mechanics/Potts/potts.cpp | 131 | 86 |
| include/MMSP.grid.cpp | 2235 | 2071 |
| include/MMSP.grid.h | 604 | 42 |
| include/MMSP.main.hpp | 356 | 317 |
| include/MMSP.output.cpp | 920 | 828 |
| include/MMSP.scalar.h | 249 | 19 |
| include/MMSP.sparse.cpp | 336 | 260 |
| include/MMSP.sparse.h | 287 | 27 |
| include/MMSP.utility.cpp | 181 | 141 |
| include/MMSP.utility.h | 236 | 168 |
| include/MMSP.vector.cpp | 241 | 182 |
| include/MMSP.vector.h | 352 | 68 |
| utility/MC2PF.cpp | 157 | 123 |
| utility/MC2sPF.cpp | 141 | 101 |
| utility/MC2vox.cpp | 122 | 99 |
| utility/PF2MC.cpp | 159 | 107 |
| utility/PF2sPF.cpp | 138 | 50 |
| utility/mmsp2png.cpp | 763 | 732 |
| utility/mmsp2pvd.cpp | 812 | 673 |
| utility/mmsp2topo.cpp | 392 | 314 |
| utility/mmsp2tsv.cpp | 672 | 622 |
| utility/mmsp2vti.cpp | 516 | 455 |
| utility/mmsp2xyz.cpp | 959 | 904 |
| utility/mmsp2z.cpp | 179 | 117 |
| utility/sPF2MC.cpp | 159 | 71 |
| utility/sPF2PF.cpp | 180 | 92 |
| utility/vox2MC.cpp | 55 | 33 |
| utility/wrongendian.cpp | 642 | 586 |

Not cited at all: algorithms/distancevoxel.h, algorithms/evolvers.h, algorithms/generators.h, algorithms/topology/point_test.cpp, examples/coarsening/grain_growth/anisotropic/Monte_Carlo/graingrowth.hpp, examples/coarsening/grain_growth/anisotropic/phase_field/graingrowth.hpp, examples/coarsening/grain_growth/anisotropic/sparsePF/graingrowth.hpp, examples/coarsening/grain_growth/isotropic/Monte_Carlo/graingrowth.hpp, examples/coarsening/grain_growth/isotropic/phase_field/graingrowth.hpp, examples/coarsening/grain_growth/isotropic/sparsePF/graingrowth.hpp, examples/coarsening/ostwald_ripening/isotropic/phase_field/ostwald.hpp, examples/coarsening/zener_pinning/anisotropic/Monte_Carlo/zener.hpp, examples/coarsening/zener_pinning/anisotropic/phase_field/zener.hpp, examples/coarsening/zener_pinning/anisotropic/sparsePF/zener.hpp, examples/coarsening/zener_pinning/isotropic/Monte_Carlo/zener.hpp, examples/coarsening/zener_pinning/isotropic/phase_field/zener.hpp, examples/coarsening/zener_pinning/isotropic/sparsePF/zener.hpp, examples/differential_equations/elliptic/Poisson/poisson.hpp, examples/phase_transitions/allen-cahn/allen-cahn.hpp, examples/phase_transitions/cahn-hilliard/convex_splitting/cahn-hilliard.hpp, examples/phase_transitions/cahn-hilliard/explicit/cahn-hilliard.hpp, examples/phase_transitions/model_A/model_A.hpp, examples/phase_transitions/model_B/model_B.hpp, examples/phase_transitions/solidification/anisotropic/solidification.hpp, examples/phase_transitions/spinodal/spinodal.hpp, examples/statistical_mechanics/Ising/ising.hpp, examples/statistical_mechanics/Potts/potts.hpp, include/MMSP.hpp, include/MMSP.output.h, test/MMSP.exampleTestSuite.cpp, test/MMSP.unitTestSuite.cpp, test/MMSP.unitTestSuite.hpp, test/test.cpp.

## 5. Findings: where the code does not do what one would expect

"(Cnn)" names the property whose theorems prove the statement of the model; entries without a number are observations from reading.

### Grid core

* `check_boundary` wraps or reflects once: coordinates more than one period outside stay outside; exact range proved (C01, C02). Dirichlet behaves exactly like Neumann.
* The MPI flags for "this rank is at the border" are wrong when an axis is cut into more pieces than it has nodes (C08).
* `vector::append` copies new-length elements out of the old-length temporary: every append reads past its block (C25). Appending an own element or multiplying by an own
  element (`v *= v[0]`) uses the changed value. Self-assignment and self-copy of vectors and sparse cells use freed memory (C24). Growing a vector of length 0 leaks its block (C23).
* The copy constructor of `grid` copies the shape, not the data (C48). Assigning grids of the same type copies the pointer: two grids share data and both free it (C47).
* `grid::copy` sizes its buffer from the destination cell, overflowing when the source cell is larger; copying a grid onto itself loses its data; the free function
  `copy(GRID1, GRID2)` overwrites its second argument, against its name (C27).
* `divergence` of a vector grid overruns the cell when there are more axes than fields and is not the divergence (C49).
* Mirror axes and axes with unlike ends do not conserve under the explicit Laplacian (C29).
* `ghostswap` needs ghosts <= local width; the sublattice form needs even global lengths and one ghost layer (C09, C12). `checkFaces` is dead code.
* `int` index arithmetic overflows for 46341^2 cells; in `setup()` for 1291 ranks in 3D or 46341 ranks in 2D; 2x30000x30000 on 3 ranks overflows while comparing partitions;
  a mirror boundary overflows for coordinates from 2^30 (C58).
* Vector arithmetic: `x+y` aborts when y is shorter, ignores the tail when longer; `vector<int>*0.5` multiplies by 0; operations between grids of different shape but equal cell
  count combine by storage position; a source with fewer cells is read out of bounds; `GRID = 0` empties the cells of a vector grid (C59).
* `vector`, `sparse`, `scalar`: `target<0>::copy/swap` use `->` on a reference, `target::resize` returns a value from `void`, `min/max` of sparse targets return references to
  temporaries, `scalar::copy` does not copy. All are templates that are not instantiated by the examples.
* `SINGLE` grids allocate full data on all ranks.

### Files

* Reading takes a block whose stored and original sizes are equal as uncompressed. zlib may produce such a block, which is then misread (C16).
* A `grid:scalar:T` file cannot be read into a `grid:T` grid and vice versa. A first line without ':' in its first characters throws.
* `Z_DATA_ERROR` of `uncompress` is not handled: the buffer is used uninitialised.
* The aggregated (BlueGene) writer fails when a cut falls on the border between two ranks, inside rank 0, or twice into one rank (C19).
* `mmsp2z` reads an older block format without boundary conditions: it rejects or misreads every file the library writes, and aborts on blocks below 8 bytes (C74).
* `wrongendian`: `long double` halves exchanged, counts truncated, alignment bytes of sparse entries ignored, one-byte scalar grids refused, `dx` printed with six digits, works in
  one direction only (C37, C38).

### Driver

* Overshoots the last step when the increment does not divide; increment 0 never ends; `prog infile outfile` without numbers is undefined; checkpoint names without suffix or with
  a second dot restart at 0 (C30).
* `print_progress`: a 20-point bar only when 20 divides the number of steps and steps >= 40.
* For `dim` outside 1..3 the driver silently does nothing.

### Random numbers, tessellation

* Mersenne twister: `seed(array, 0)` reads the array; `randInt(n)` is valid only below 2^32; the text form has no separator after the last word (C36).
  Seeding by an array reaches one half of the initial states, not all of them as its comment says (C139); the arrays {1} and {1, 0} lead to the same numbers (C140).
* Priority queue: `pop` leaves a stale back pointer (C32).
* `exact_voronoi` is never periodic (C33). In a serial build `propagate_distance` hangs on upper faces, and `approximate_voronoi` never completes (C34). The number of random seeds
  grows with the number of ranks, and seed ids depend on the rank order.
* `tessellate.hpp`, `seeds_from_file`: a blank line uses an uninitialised number; a short line repeats its last number; the number 1 leads outside the grid; six-digit decimals that were
  rounded down give the neighbouring node (C80).
* `generators.cpp`: fast marching computes a taxicab Voronoi diagram without periodic images, neither Euclidean nor periodic (C77). On N x 1 grids it reads a stale position of the priority
  queue; with two proper axes and separated seeds it does not (C78). `seedswap` lists own seeds twice, so one grain has different numbers on different ranks (C79).
* `generators.cpp`, seed files: a file written by `seeds_to_file` comes back from `seeds_from_file` with every coordinate above the lower face reduced by one, and with an additional seed made of
  the last number (`while (input.good())`); a file without rows uses an uninitialised number (C80).
* `honeycomb_seeds`: spacing below 2 divides by zero; odd spacings from 5 on begin with a displaced row; in parallel the seeds are made several times or on a displaced lattice (C81).
  `seeds_from_poisson_process` makes the full number of seeds on every rank.

### Tools

* Converters drop spacing and boundary conditions; MC2PF writes out of bounds for negative ids; sPF2PF uses a two-dimensional grid for 3D files; sPF->PF->MC and sPF->MC differ on
  ties; sPF2MC gives id 0 when no value is positive (C39). MC2vox's default output name ends in ".PF", so a file named *.PF is emptied before it is read; integer
  types other than `int` end with status -2 and an emptied output; it drops origin and spacing. vox2MC leaves cells uninitialised when the file is too short (C73).
* `grainsize.hpp` uses an interface that no longer exists and skips empty sparse cells (C40).
* mmsp2png: `--zoom` can miss the minimum and then converts a number outside 0..255 (undefined); constant field divides 0 by 0; `--slice=X` without a level draws nothing; the default
  level ignores x0; `--slice` on a plane aborts; sparse `--exclude` of one field scales squares but draws roots; contour level 0 is never drawn; `--contol=` drops the first
  character of its number (C42).
* mmsp2topo: ids >= 65536 become their own neighbours; undefined when a vertex grain was not met; aborts iff some face has exactly one edge (3D); three-face grains never printed;
  2D numFaces always 0 (C46).
* mmsp2vti, mmsp2pvd: `--max` on an empty sparse cell aborts and compares signed values; vector cells longer than `fields(GRID)` overrun; `--field=n` beyond the cell aborts (C62). File
  name collisions, multi-block files keep only the last block, order of arguments decides whether the collection is empty (C60).
* mmsp2tsv: `char` grids print raw bytes, so a tab or newline value breaks the table; coordinates with six digits may coincide; `mmsp2tsv a.tsv` empties its input (C60, C61).
* mmsp2png, mmsp2tsv and mmsp2xyz cannot read scalar files; `long double` is taken for `long` (C60).
* Converters accept `unsigned int`, `short int`, `scalar:int` and `long double` by their type test and then stop with -2; a truncated header leaves the dimension uninitialised (C82).
* Command lines of mmsp2png and mmsp2xyz: `--contol=1.5` reads `.5`, `--contol=1` passes a null pointer to `atof`; `--contour=` and `--zoom=a` likewise; values are cut at 255 characters,
  so a long field list selects a field nobody named; misspelt options count as the data file (C83).
* mmsp2xyz: no `--contour`, no points; level 0 selects nothing; contours that pass between nodes are missed; options for fields have no effect on vector and sparse grids; the header with
  normals lacks a tab (C84).

* mmsp2topo: on a plane the rows have more columns than the first line, and those of small grains are shifted; a grain of volume zero makes the conversion of its centre undefined; grains
  with fewer than two corners (3D) or two neighbours (2D), and 3D grains without an edge, are missing from the table; "bulk" means volume of at least 1, the domain boundary is not looked
  at; the exclusion counters 138, 202 and 244 never count; the upper end of the span of a decreasing phase is printed as 0 (C86).
* Progress bar: 20 points only for multiples of 20 other than 20; one-step runs never close it; overflow beyond 107374184 steps (C85).

### Examples

* An update loop without `ghostswap` between reading and writing neighbours breaks "parallel = serial" (C50).
* Sparse phase-field updates and `evolvers.cpp` do not clear the destination cell: values from two steps before survive (C41, C44).
* Zener pinning, sparse: tests the node number instead of the field index (C51), and as the number is that within the process, its result depends on the number of processes (C87). Zener pinning, dense anisotropic: the projection rescales the particle field (C64).
  Zener pinning, sparse anisotropic: particles shrink wherever another field is cut off at zero (C76). Sums of fields of the sparse examples never fall below 1 but may exceed it (C75).
* Potts: wrong tests on `dim`, in 1D and 2D some neighbours are not counted. Ising: sign of the coupling reversed. Heisenberg: sign reversed plus a spurious term (C52),
  so that its energy changes are not those of any energy; `rand()%20` prefers spins 0 to 7 by 2^-31 (C94).
* Monte Carlo grain growth never returns on slabs of one layer starting at an even coordinate, does nothing in 1D, uses the parity of axis 0 for all axes, and calls `srand(time)` in
  every pass (C54, C55).
* Multigrid: no side of the form 2^k+1 or a side below 5 leads to an infinite loop; in 1D transfer does nothing; x0 is ignored (C56).
  In 1D it is therefore four sweeps, off by a factor of more than 43000 on the example's own grid (C92). On several ranks the upper ones read outside their memory (C93).
  `update` ignores its number of steps and overwrites the right-hand side, so every second checkpoint of a run has the wrong sign (C120).
* Convex splitting: odd periodic lengths race; negative odd coordinate sums are visited twice; the last allowed iteration is wasted (C57).
* Beginners' diffusion: `MMSPDiffusion` prints a grid one step old, and uses node numbers as coordinates; `MMSPDiffusion2D` takes a time step beyond the stability limit and conserves
  heat although its comment announces fixed boundary values (C67). It diverges on every square of four nodes or more along a side (C96).
* Ostwald ripening: the order-parameter equation lacks a factor; vanished fields come back (C68).
* Solidification: latent heat of the last step of every checkpoint interval is lost; flux divergence dropped at non-periodic lower faces (C69).
* Sparse grain growth: the result depends on how many steps a call of `update` makes, because stale entries of `newGrid` survive within a call only (C88).
* Ising, Potts and Heisenberg models: `gss` is the square root of the rank's own number of nodes, so ranks of different size call `ghostswap` different numbers of times and the program
  hangs, on the shipped grids on 7 ranks in 2-D and on 3 ranks in 3-D (C101).
  Where it returns, two ranks may flip neighbouring border sites at once, so a parallel run is not a reordering of serial attempts (C103).
* Noise: tail cut at about 9.2 standard deviations; hangs for a generator that never hits the disk (C70).
* Initial conditions: dense Zener files contain uninitialised numbers; 1D grains lack an absolute value and (sparse) a remainder (C71).
  If one of the uninitialised numbers is not finite, so is every field of the nodes around it in the next file (C119). In MPI builds particles at rank borders are
  written to ghost cells and lost; the number of particles grows with the number of ranks (C104).

## 6. Disagreements between property list and code

Properties with status `partial` are statements one would expect of the code and that are false of it as they stand. Their full statement is kept in `properties.jsonl` with the
failure in parentheses. For each there is a theorem with a concrete witness of the failure, and a theorem (suffix `_partial`) for the part that is true. No `partial` is left because a
proof was not found.

## 7. Theorems and axioms

Axioms: P = `propext`, C = `Classical.choice`, Q = `Quot.sound`, - = none. The list is the output of `collectAxioms` on the built library.

**C01** (proved) Out-of-range subscripts land inside the domain as the boundary condition says. 

* PCQ: `checkBoundary_below`, `checkBoundary_above`, `contract_unique`
* PQ: `checkBoundary_inside`, `checkBoundary_mpi`, `checkBoundary_idem`

**C02** (proved) One wrap only: deep out-of-range coordinates escape the allocation. The single wrap is a limit of the code; the theorems give the exact set of coordinates that escape.

* PCQ: `checkBoundary_onAxis_iff`, `checkBoundary_mpi_ghost`, `periodic_escape`, `mirror_escape`

**C03** (proved) Linear node number and coordinate are inverse bijections. 

* PCQ: `Shape.position_isNode`, `Shape.position_surj`, `Shape.position_inj`, `Shape.position_rowMajor`, `Shape.atSub_eq_atVec`, `Shape.atNode_eq_atVec`

**C04** (proved) Every in-range access stays inside the allocated array and distinct nodes never alias. Integers are unbounded in this model; overflow of int is separate.

* PCQ: `Shape.atVec_in_bounds`, `Shape.atVec_inj`, `Shape.rawOffset_surj`, `Shape.serial_access_in_bounds`, `Shape.mpi_access_in_bounds`

**C05** (proved) Domain decomposition is a partition. 

* PCQ: `Decomp.partition`, `Decomp.local_in_global`, `Decomp.ordered`, `Decomp.balanced`, `Decomp.nonempty_iff`

**C06** (proved) Process grid uses all processes and minimises the ghost area estimate. 

* PCQ: `Decomp.combo_in_bounds`, `Decomp.choose_procGrid`, `Decomp.choose_minimal`, `Decomp.choose_first`

**C07** (proved) Rank and process coordinate are a bijection and neighbours are symmetric. 

* PCQ: `Decomp.pos_bijective`, `Decomp.below_spec`, `Decomp.above_spec`, `Decomp.above_below`, `Decomp.below_above`, `Decomp.above_adjacent`, `Decomp.below_adjacent`

**C08** (proved) Boundary kind: parallel exactly on internal faces. Holds when no axis is cut into more pieces than it has nodes; the other case is refuted by parallel_fails_when_overdecomposed.

* PCQ: `Decomp.parallel_iff_internal`, `Decomp.parallel_fails_when_overdecomposed`, `Decomp.localShape_wf`

**C09** (proved) Ghost exchange fills every ghost cell, including edges and corners, with the owner's value. Rounds in lock step; every other schedule is reduced to this one by C11.

* PCQ: `Ghost.ghostswap_correct`, `Ghost.owner_exists`, `Ghost.ghostswap_keeps_own`

**C10** (proved) Ghost exchange needs ghosts no wider than the thinnest box. Concrete counterexample to C09 without the width requirement.

* PCQ: `Ghost.ghostswap_thin_fails`

**C11** (proved) Ghost exchange messages match: no truncation, no deadlock. MPI is modelled as a message-passing machine (Rounds.lean) with arbitrary delivery order and buffered or rendezvous sends.

* PCQ: `Ghost.partners_match`, `Ghost.regions_match`, `Ghost.ghostswap_schedules`, `Ghost.ghostswap_no_confusion`, `Ghost.ghostswap_scheduled_correct`, `Ghost.complete_run_exists`

**C12** (proved) Sublattice ghost exchange transfers exactly the cells of that sublattice. Holds for one ghost layer and even global side lengths; sub_odd_fails and sub_wide_fails show both are needed.

* PCQ: `Ghost.sub_ghostswap_correct`, `Ghost.sub_regions_match`, `Ghost.sub_scheduled_correct`, `Ghost.sublattices_partition`, `Ghost.sub_odd_fails`, `Ghost.sub_wide_fails`
* PQ: `Ghost.parityTable_eq`

**C13** (proved) Buffer round trip for cell types. 

* PCQ: `primCell_roundTrips`, `vectorCell_roundTrips`, `sparseCell_roundTrips`, `vectorCell_truncated`, `vectorCell_negative`

**C14** (proved) Buffer round trip for grid regions. 

* PCQ: `region_pack`, `region_roundTrip`

**C15** (proved) Output then input reproduces the grid. zlib is a parameter assumed to invert its own output and to respect the size bound write_buffer reserves; Shrinks excludes the collision of C16. The ghost exchange at the end of input is C09-C12. Boundary codes outside the enumeration are not represented.

* PCQ: `FileIO.readBlock_spec`, `FileIO.read_dataSection`, `FileIO.restart`, `FileIO.writers_run`, `FileIO.serial_run`, `FileIO.output_input`

**C16** (proved) Block whose compressed size equals its raw size is misread. For every compressor output of equal length and different content; cell types whose every byte string is a value.

* PCQ: `FileIO.equal_size_misread`

**C17** (proved) File header is parsed back exactly and mismatching files are rejected. Text conversion of double is a parameter with a round6 law.

* PCQ: `FileIO.header_roundTrip`, `FileIO.checkType_iff`, `FileIO.scalar_file_rejected`, `FileIO.no_colon_throws`, `FileIO.wrong_type_rejected`, `FileIO.wrong_dimension_rejected`, `FileIO.output_input`

**C18** (proved) Parallel output: ranks write disjoint, contiguous pieces. Any order of all single-byte writes of all ranks.

* PCQ: `FileIO.standard_output`, `FileIO.offsets_contiguous`, `FileIO.offsets_disjoint`, `FileIO.standard_output_bytes`
* PQ: `FileIO.rank0_size_unchecked`, `FileIO.later_size_checked`

**C19** (proved) The aggregating parallel writer: when it works, and that it then writes the standard file. Plan, messages and buffers of all ranks are modelled; messages between two ranks match by source and tag as in MPI. Uninitialised requests and uninitialised or overrun buffers count as undefined behaviour. Block counts fit unsigned int.

* PCQ: `FileIO.Aggregated.Job.aggregated_iff`, `FileIO.Aggregated.Job.aggregated_output`, `FileIO.Aggregated.Job.aggregated_eq_standard`, `FileIO.Aggregated.Job.aggregated_single`, `FileIO.Aggregated.Job.boundary_fails`, `FileIO.Aggregated.Job.rank0_cut_fails`, `FileIO.Aggregated.Job.wide_rank_fails`, `FileIO.Aggregated.Job.boundary_aborts`, `FileIO.Aggregated.Job.heavy_rank0_overflows`, `FileIO.Aggregated.Job.wide_rank_example`

**C20** (proved) Sparse cell behaves as a finite map with default zero. Contents in Sparse.lean; the storage steps of set are covered by sparse_grow_correct.

* PCQ: `Sparse.history_correct`, `Sparse.read_correct`, `Sparse.enumerate_correct`, `Heap.sparse_grow_correct`
* PQ: `Sparse.enumerate_returns`

**C21** (proved) Sparse arithmetic is pointwise. Only 0+a=a, a+0=a, a-0=a and a*0=0 are used of the element arithmetic, so rounding does not matter (except the sign of a floating zero).

* PCQ: `Sparse.eq_correct`
* PQ: `Sparse.add_correct`, `Sparse.addEq_correct`, `Sparse.sub_correct`, `Sparse.subEq_correct`, `Sparse.smul_correct`, `Sparse.mulEq_correct`, `Sparse.max_correct`, `Sparse.min_correct`, `Sparse.addEqSelf_correct`, `Sparse.subEqSelf_correct`

**C22** (proved) Dominant field selection. getMagPhi in exact arithmetic with an arbitrary sqrt. The assertion in grain_id fails for index -1; for other negative indices the unsigned conversion is modelled but not described by the theorem.

* P: `Sparse.grainId_none`
* PCQ: `Sparse.getMagPhi_correct`
* PQ: `Sparse.grainId_correct`, `Sparse.grainId_sentinel`

**C23** (partial) Vector cell container laws. Everything except append holds outright. append reads behind its temporary (C25), so its clause is proved only for machines where such a read gives unspecified bytes instead of stopping the program. resize_leaks: growing a vector that was shrunk to 0 loses its empty block.

* P: `Heap.new_correct`
* PCQ: `Heap.assign_correct`, `Heap.copy_correct`, `Heap.resize_correct`, `Heap.copyCtor_correct`, `Heap.mulEq_correct`, `Heap.append_correct_partial`, `Heap.appendVec_correct_partial`, `Heap.history_correct`
* PQ: `Heap.swap_correct`, `Heap.set_correct`, `Heap.eq_correct`, `Heap.destroy_correct`, `Heap.resize_leaks`, `Heap.index_correct`

**C24** (proved) Self-assignment and self-copy. The wanted behaviour is false; the theorems show undefined behaviour for every non-empty cell, and that empty cells survive. One model covers vector and sparse, whose assignment and copy have the same storage steps.

* PCQ: `Heap.self_assign_partial`
* PQ: `Heap.self_assign_ub`, `Heap.self_copy_ub`

**C25** (partial) append never reads outside the source buffer. The claim is false: append_overreads shows every append reads past its temporary. The _partial theorems give the contents when that read is harmless. sparse::set has no such over-read.

* PCQ: `Heap.append_overreads`, `Heap.appendVec_overreads`, `Heap.append_correct_partial`, `Heap.appendVec_correct_partial`, `Heap.append_own_element`, `Heap.sparse_grow_correct`

**C26** (proved) Global reduction is the same on all ranks and equals the rank-order fold. Any delivery order, any mixture of buffered and waiting sends (Proc.lean). Byte counts must fit an int.

* PCQ: `Global.global_correct`, `Global.unknown_operation`, `Global.combine_named`, `Comm.result_unique`, `Comm.deadlock_free`

**C27** (proved) Grid swap and copy. Self-copy loses the data; grids of sparse cells overflow as soon as one cell is non-empty.

* PCQ: `GridCopy.swap_correct`, `GridCopy.swap_contents`, `GridCopy.swap_swap`, `GridCopy.swap_wf`, `GridCopy.copy_correct`, `GridCopy.copy_prim`, `GridCopy.copy_vector`, `GridCopy.copy_sparse_overflow`, `GridCopy.copy_self`, `GridCopy.freeCopy_overwrites_second`

**C28** (proved) Stencils: linearity and exactness. Exact arithmetic (any field), as the property says nothing about rounding. Exactness is proved up to degree three per variable for the Laplacian and two for the gradient, and shown to stop there.

* PCQ: `Stencil.laplacian_returns_iff`, `Stencil.laplacian_eq`, `Stencil.divergence_eq`, `Stencil.gradient_eq'`, `Stencil.laplacian_linear`, `Stencil.divergence_linear`, `Stencil.gradient_linear`, `Stencil.constant_field`, `Stencil.laplacian_exact`, `Stencil.gradient_exact`, `Stencil.divergence_exact`, `Stencil.laplacianField_agrees`, `Stencil.laplacianVec_correct`, `Stencil.gradientField_agrees`, `Stencil.laplacianSparse_correct`, `Stencil.inReach_serial`, `Stencil.inReach_mpi`, `Stencil.laplacian_not_exact_quartic`, `Stencil.gradient_not_exact_cubic`, `Stencil.laplacianNode_eq`

**C29** (proved) Discrete conservation. Exact arithmetic. Axes may mix: each is periodic on both sides or clamped (Neumann or Dirichlet flag) on both sides.

* PCQ: `Conserve.laplacian_conserves`, `Conserve.step_conserves`, `Conserve.update_conserves`, `Conserve.cahnHilliard_conserves`, `Conserve.modelB_conserves`, `Conserve.mirror_not_conserving`, `Conserve.mixed_not_conserving`

**C30** (proved) Main driver: checkpoint names, step accounting and restart. Names are byte lists; the grid constructor, update and output are parameters. Numbers are unbounded naturals (overflow of int counts outside the model). The originally stated 'exactly the requested number of steps' and 'restarting continues numbering' are false in general; overshoots, zero_increment_hangs, params_two_names, plain_restart_forgets and dotted_restart_forgets are the counterexamples, the other theorems say when they hold.

* P: `Driver.params_two_names`
* PCQ: `Driver.fileName_length`, `Driver.fileName_order`, `Driver.parse_one_dot`, `Driver.parse_checkpoint`, `Driver.timeLoop_spec`, `Driver.exact_steps`, `Driver.overshoots`, `Driver.params_steps`, `Driver.params_steps_increment`, `Driver.params_out_steps`, `Driver.params_out_steps_increment`, `Driver.params_rejects`, `Driver.main_spec`, `Driver.main_rejects`, `Driver.header_recognised`, `Driver.restart_continues`, `Driver.plain_restart_forgets`, `Driver.dotted_restart_forgets`, `Driver.main_generates`, `Driver.main_help`, `Driver.example_rejects`, `Driver.main_no_arguments`
* PQ: `Driver.fileName_eq`, `Driver.fileName_ok`, `Driver.parse_plain`, `Driver.count_spec`, `Driver.zero_increment_hangs`

**C31** (proved) Priority queue pops minima. Elements are handles (pointers) with a key each; keys of stored elements change only together with an update.

* PCQ: `PriorityQueue.push_spec`, `PriorityQueue.holds_iff_back`, `PriorityQueue.step_spec`, `PriorityQueue.history`, `PriorityQueue.misuse_aborts`
* PQ: `PriorityQueue.top_min`, `PriorityQueue.pop_spec`, `PriorityQueue.empty_good`

**C32** (proved) Priority queue back-pointers. The unrestricted claim (every handle knows its position) is false of the code: stale_index and stale_index_misorders are concrete runs.

* -: `PriorityQueue.fresh_of_not_top`
* PCQ: `PriorityQueue.update_spec`, `PriorityQueue.step_spec`, `PriorityQueue.history`
* PQ: `PriorityQueue.stale_index`, `PriorityQueue.stale_index_misorders`

**C33** (proved) Exact Voronoi assigns every node to a nearest seed. Squared distances below 2^31. exact_not_periodic is a concrete periodic line on which the assigned seed is not the nearest one periodically.

* PCQ: `Tessellate.nodeIdentity_spec`, `Tessellate.exactVoronoi_nearest`, `Tessellate.tessellateMpi_spec`, `Tessellate.tessellation_independent`, `Tessellate.nearest_unique`, `Tessellate.image_eq`, `Tessellate.exact_not_periodic`

**C34** (proved) Fast-marching tessellation: when it ends. The hoped-for termination is false; propagate_hangs and approximate_never_finishes are the refutations (a run may also stop with undefined behaviour or a failed assertion, never normally). LeadsBack excludes only a one-layer axis with a mirror condition below.

* PCQ: `Tessellate.scan_hangs_here`, `Tessellate.scan_hangs`, `Tessellate.propagate_hangs`, `Tessellate.propagate_returns`, `Tessellate.approximate_never_finishes`, `Tessellate.approximate_no_seeds`

**C35** (proved) Seed exchange reproduces all seeds on every rank. MPI_Allgather / MPI_Allgatherv are modelled by their standard meaning.

* PCQ: `Tessellate.toBuffer_spec`, `Tessellate.fromBuffer_spec`, `Tessellate.seeds_roundTrip`, `Tessellate.exchange_spec`, `Tessellate.fileSeeds_count`, `Tessellate.fileSeeds_same`
* PQ: `Tessellate.allgatherv_spec`

**C36** (proved) Random generator: published sequence, range, uniformity, reproducibility. uint32 is a 64-bit unsigned long, as on LP64. rand() is stated for every monotone rounding fixing 0 and 1. Seeding from the clock or /dev/urandom and randNorm are in C137. Termination of the bounded draw is not claimed, only what it returns.

* PCQ: `MTRand.mt19937`, `MTRand.mt19937_array`, `MTRand.temper_inj`, `MTRand.draws_lt`, `MTRand.rand_range`, `MTRand.randExc_range`, `MTRand.randDblExc_range`, `MTRand.rand53_range`, `MTRand.rand53_surj`, `MTRand.used_eq`, `MTRand.randIntTo_spec`, `MTRand.randIntTo_uniform`, `MTRand.never_stuck`, `MTRand.never_stuck_array`, `MTRand.seedArray_stream`, `MTRand.seedArray_empty`, `MTRand.inUse_seed`, `MTRand.inUse_draws`, `MTRand.copy_stream`, `MTRand.save_load`, `MTRand.text_round_trip`
* PQ: `MTRand.temper_lt`, `MTRand.randIntTo_le`, `MTRand.text_glued`

**C37** (proved) Endian swap is an involution, the converter is not. Reading beyond the end of a stream is modelled as undefined behaviour: the buffer keeps unspecified content.

* PCQ: `WrongEndian.swapBuffer_involutive`, `WrongEndian.native_block_fails`
* PQ: `WrongEndian.swapEndian_eq`, `WrongEndian.swapEndian_involutive`

**C38** (proved) Endian converter turns foreign files into native ones. Assumes a lawful zlib, that a compressed block is not accidentally as long as the raw one (see C16) and that spacings survive reading as float and printing (the program prints six digits). Threads are represented by the order in which they finish.

* PCQ: `WrongEndian.scalar_data`, `WrongEndian.vector_data`, `WrongEndian.sparse_data`, `WrongEndian.dispatch`, `WrongEndian.block_converts`, `WrongEndian.file_converts`, `WrongEndian.foreign_scalar`, `WrongEndian.foreign_vector`, `WrongEndian.foreign_sparse`, `WrongEndian.one_byte_refused`, `WrongEndian.dispatch_longDouble`, `WrongEndian.longDouble_halves`, `WrongEndian.vector_256_wrong`, `WrongEndian.sparse_padding_wrong`

**C39** (proved) Converters between Monte Carlo, phase-field and sparse grids. Values form a linear order (no NaN). File input and output around the conversion are C16/C17. Serial build, as in utility/Makefile.

* PCQ: `Convert.mc2pf_spec`, `Convert.mc2pf_negative`, `Convert.pf2mc_spec`, `Convert.mc_pf_mc`, `Convert.mc2spf_spec`, `Convert.spf2mc_spec`, `Convert.mc_spf_mc`, `Convert.pf2spf_spec`, `Convert.spf2pf_spec`, `Convert.spf2pf_3d`, `Convert.spf_pf_spf`, `Convert.spf_pf_mc`, `Convert.tie_differs`

**C40** (proved) Grain size statistics count every node once. The header targets an older grid class and does not compile with today's headers; the bodies are modelled with today's grid. Parallel statement for fewer than 2^28 nodes in all (the summed table must fit an int-sized message).

* PCQ: `GrainSize.countNodes_spec`, `GrainSize.table_total`, `GrainSize.sparseId_spec`, `GrainSize.int_grains`, `GrainSize.vector_grains`, `GrainSize.sparse_grains`, `GrainSize.rankFold_table`, `GrainSize.grainsize_global`
* PQ: `GrainSize.vectorId_spec`

**C41** (partial) Interface field evolution keeps values in range and normalised. The claim as stated is false of the code (not_simplex, evolve_not_simplex, stale_total, node_keeps); proved for an empty destination cell. Exact arithmetic.

* PCQ: `SparsePF.nearby_spec`, `SparsePF.forces2_spec`, `SparsePF.rates_spec`, `SparsePF.rates_total`, `SparsePF.forces3_spec`, `SparsePF.free_total`, `SparsePF.project_simplex`, `SparsePF.project_none`, `SparsePF.pairNode_simplex_partial`, `SparsePF.evolveNode_simplex_partial`, `SparsePF.anisoNode_simplex_partial`, `SparsePF.aniso_first_step_partial`, `SparsePF.pairNode_keeps`, `SparsePF.stale_total`, `SparsePF.not_simplex`, `SparsePF.node_keeps`, `SparsePF.evolve_not_simplex`

**C42** (partial) Grey-scale image export. The picture is complete and right when the limits passed are a proper interval (the default 0, 1) and the slice, in three dimensions, is inside (mmsp2png_partial). The full claim is false of the code: zoom_undefined, zoom_constant, slice_without_level, default_slice_blank, slice_plane_aborts, exclude_one_undefined. Real arithmetic instead of double; sqrt arbitrary.

* PCQ: `Image.mmsp2png_partial`, `Image.fieldToPng_spec`, `Image.visited_eq`, `Image.frame_isNode`, `Image.shade_spec`, `Image.shade_mono`, `Image.shade_ends`, `Image.vectorValue_spec`, `Image.default_slice`, `Image.slice_outside_blank`, `Image.slice_without_level`, `Image.default_slice_blank`, `Image.slice_plane_aborts`, `Image.zoom_misses_minimum`, `Image.zoom_constant`, `Image.zoom_undefined`, `Image.exclude_one_undefined`
* PQ: `Image.scalarContour_marks`, `Image.sparse_consistent`, `Image.sparse_exclude_one`, `Image.contours_ignored`, `Image.contour_zero_ignored`, `Image.contour_spec`, `Image.contour_drawn`

**C43** (proved) Spin model updates keep the state space. Serial runs on periodic grids; single flips on any rank of a parallel run (ising_rank_states).

* PCQ: `Spin.boxFold_eq`, `Spin.ising_states`, `Spin.ising_downhill`, `Spin.ising_rank_states`, `Spin.boxReach_mpi`, `Spin.potts_states`, `Spin.heisenberg_states`

**C44** (partial) Sparse phase-field update does not resurrect vanished fields. The claim as stated is false of the code (isoRun_keeps, resurrected); proved for an empty destination cell. Exact arithmetic, serial runs.

* PCQ: `SparsePF.sweep_spec`, `SparsePF.isoRun_total`, `SparsePF.isoRun_keeps`, `SparsePF.resurrected`
* PQ: `SparsePF.isoNode_spec`, `SparsePF.isoNode_fresh_partial`, `SparsePF.isoNode_bulk`, `SparsePF.isoValue_eq`

**C45** (proved) Anisotropy tables are symmetric, stable functions. The computation is an arbitrary function; stable needs it never to be 0, which zero_recomputed shows to be necessary unless it is symmetric (lookup_spec).

* P: `Anisotropy.stable`, `Anisotropy.lookup_comm`
* PCQ: `Anisotropy.energy_spec`, `Anisotropy.zero_recomputed`
* PQ: `Anisotropy.lookup_spec`

**C46** (proved) Grain topology: edges, faces, vertices, p-vector. Both directions are exact: topology_spec (3D) says when the assertion fails and what comes out otherwise, collect2_spec (2D) when the loop is undefined and what is collected otherwise. Defects shown with witnesses: row_aborts (three grains in a row), square_undefined (four nodes), own_neighbor (ids from 65536), three_faces_hidden (such grains are never printed), centroid_outside. Exact arithmetic instead of float; serial; the text output, averages and 2D analysis after the loop are not modelled.

* PCQ: `Topology.checkNeighbors_spec`, `Topology.not_own_neighbor`, `Topology.own_neighbor`, `Topology.volume_spec`, `Topology.collect3_spec`, `Topology.makePvector_spec`, `Topology.inferVertices_spec`, `Topology.pbar_spec`, `Topology.plateaunic_iff`, `Topology.topology_spec`, `Topology.collect2_spec`, `Topology.three_faces_hidden`, `Topology.row_aborts`, `Topology.square_undefined`, `Topology.estimateCentroid_keeps`, `Topology.centroid_outside`

**C47** (proved) Same-type grid assignment shares storage. Negative result: the sharing and the double release are proved. That the memberwise operator is chosen is a C++ language rule, in the trusted base.

* PCQ: `GridCopy.assign_shares`

**C48** (proved) Copy-constructed grid has the source's layout but not its values. 

* PCQ: `GridCopy.copyCtor_correct`

**C49** (proved) divergence of a vector grid. 

* PCQ: `Stencil.divergenceVec_eq`, `Stencil.divergenceVec_overruns`, `Stencil.divergenceVec_not_divergence`

**C50** (proved) A parallel run computes bit for bit what the serial run computes. Ranks run statement by statement; freedom of the schedule inside ghostswap is C10. Arithmetic is a parameter without laws.

* PCQ: `ParallelRun.parallel_eq_serial`, `ParallelRun.allenCahn_parallel`, `ParallelRun.cahnHilliard_parallel`, `ParallelRun.missing_ghostswap_differs`

**C51** (partial) Zener pinning: particles do not move. The claim is false of the code: particle_moves is a concrete run, zener_elsewhere and zener_origin say what the code does instead.

* PCQ: `SparsePF.particle_moves`
* PQ: `SparsePF.zener_elsewhere`, `SparsePF.zener_origin`

**C52** (partial) Spin models: the computed energy change is the change of the model's energy. The claim is false of the code except for Potts in three dimensions (potts_energy_partial); the other theorems say what is computed instead.

* PCQ: `Spin.energySum_spec`, `Spin.energySum_same`, `Spin.ising_energy`, `Spin.ising_descends`, `Spin.ising_leaves_ground_state`, `Spin.potts_energy_partial`, `Spin.potts_descends_partial`, `Spin.potts_line`, `Spin.potts_plane`, `Spin.potts_plane_raises`, `Spin.heisenberg_energy`, `Spin.heisenberg_leaves_ground_state`, `Spin.interaction_update`

**C53** (proved) Monte Carlo Zener pinning keeps the particles and creates no grains. Serial runs on periodic grids. table_energy_ok discharges the hypotheses on the energy for the anisotropy table of C45.

* PCQ: `SpinZener.energyChange_spec`, `SpinZener.near_spec`, `SpinZener.zenerFlip_cases`, `SpinZener.zener_states`, `SpinZener.zener_descends`, `SpinZener.table_energy_ok`

**C54** (proved) Monte Carlo grain growth works on independent sublattices. Energy and whole-run statements for serial runs (C100 for parallel ones); the statements on one pass hold on every rank. Different ranks write different nodes and read only nodes that no rank changes during the pass (colour_apart, pass_spec).

* PCQ: `MonteCarlo.site_colour`, `MonteCarlo.node_drawn`, `MonteCarlo.exists_colour`, `MonteCarlo.local_serial`, `MonteCarlo.local_mpi`, `MonteCarlo.neighbors_spec`, `MonteCarlo.energyChange_eq`, `MonteCarlo.attempt_cases`, `MonteCarlo.pass_spec`, `MonteCarlo.energy_spec`, `MonteCarlo.pass_descends`, `MonteCarlo.update_states`, `MonteCarlo.update_descends`
* PQ: `MonteCarlo.colour_apart`

**C55** (partial) Monte Carlo grain growth returns. The claim is false of the code (update_hangs); pass_can_end_partial is what remains of it.

* PCQ: `MonteCarlo.pass_ends_iff`, `MonteCarlo.pass_hangs`, `MonteCarlo.thin_sublattice`, `MonteCarlo.update_hangs`, `MonteCarlo.pass_can_end_partial`, `MonteCarlo.update_line`

**C56** (proved) Multigrid: smoothing, restriction, prolongation, cycle. Exact arithmetic; serial; non-termination is: no amount of fuel suffices.

* PCQ: `Multigrid.smooth_ok`, `Multigrid.sweep_fixed_iff`, `Multigrid.smooth_fixed`, `Multigrid.smooth_other`, `Multigrid.smooth_error`, `Multigrid.defect_spec`, `Multigrid.coarsen_spec`, `Multigrid.coarsen_line`, `Multigrid.fullWeight_eq`, `Multigrid.refine_linear`, `Multigrid.refine_cubic`, `Multigrid.refine_line`, `Multigrid.mg_spec`, `Multigrid.mg_fixed`, `Multigrid.mg_never`, `Multigrid.update_spec`, `Multigrid.update_hangs`, `Multigrid.update_never`, `Multigrid.ten_never`

**C57** (proved) Convex splitting: split, solver, mass and energy. Exact arithmetic instead of double; sqrt is a parameter, assumed to be a square root where the bound needs it; threads are modelled as an arbitrary order of whole node updates. Not modelled: initialisation with noise, the MPI reductions of the residual, output, the ghost exchange between the colours.

* PCQ: `ConvexSplit.vanilla_derivative`, `ConvexSplit.parametric_derivative`, `ConvexSplit.vanilla_splits`, `ConvexSplit.parametric_splits`, `ConvexSplit.benchmark_not_split`, `ConvexSplit.benchmark_minima`, `ConvexSplit.fieldLaplacian_ok`, `ConvexSplit.fringe_ok`, `ConvexSplit.node_ok`, `ConvexSplit.passIn_ok`, `ConvexSplit.iteration_fixed_iff`, `ConvexSplit.pass_any_order`, `ConvexSplit.mass_defect`, `ConvexSplit.scheme_mass`, `ConvexSplit.energy_defect`, `ConvexSplit.scheme_energy`, `ConvexSplit.vanilla_energy`, `ConvexSplit.vanilla_solvable`, `ConvexSplit.parametric_solvable`, `ConvexSplit.residual_ok`, `ConvexSplit.solve_spec`, `ConvexSplit.update_spec`, `ConvexSplit.last_iteration_wasted`, `ConvexSplit.passed_bound`, `ConvexSplit.passed_mass`, `ConvexSplit.odd_period_races`, `ConvexSplit.negative_twice`
* PQ: `ConvexSplit.vanilla_split`, `ConvexSplit.parametric_split`, `ConvexSplit.vanilla_nonlinear`, `ConvexSplit.parametric_nonlinear`

**C58** (proved) When the index arithmetic fits into int. int has 32 bits; any overflow is undefined behaviour. The sum and products are checked operation by operation in the order of the code. Not covered: the int arithmetic of buffer sizes.

* -: `Overflow.mirror_overflow`
* P: `Overflow.square_limit`
* PCQ: `Overflow.sizes_exact`, `Overflow.choose_exact`, `Overflow.axisLimits_exact`, `Overflow.setup_exact`, `Overflow.fits_of_sizes`, `Overflow.position_ok`, `Overflow.atNode_ok`, `Overflow.checkBoundary_ok`, `Overflow.atVec_ok`, `Overflow.neighbours_ok`, `Overflow.digits_ok`, `Overflow.many_ranks_overflow`, `Overflow.many_ranks_overflow_2D`, `Overflow.ranks_1290`, `Overflow.slab_overflow`, `Overflow.slab_wraps`

**C59** (proved) Arithmetic of vector cells and of grids. Storage and aliasing are the subject of other claims (C26, C47, C48). With NDEBUG the assertion that stops the program is undefined behaviour instead.

* P: `VecMath.add_not_comm`
* PCQ: `VecMath.componentwise`, `VecMath.zipEq_eq`, `VecMath.add_spec`, `VecMath.sub_spec`, `VecMath.self_spec`, `VecMath.smul_half`, `VecMath.grid_spec`, `VecMath.grid_vec_spec`, `VecMath.grid_add_sub`, `VecMath.grid_smaller_source`, `VecMath.grid_other_shape`, `VecMath.fill_spec`, `VecMath.fill_vector`
* PQ: `VecMath.add_laws`, `VecMath.min_max_spec`, `VecMath.smul_spec`, `VecMath.mulEq_spec`, `VecMath.dot_spec`, `VecMath.dot_comm`, `VecMath.dot_add`

**C60** (proved) Front ends of the export tools. Command line options other than the output name are not modelled for png and xyz (see C42); a file can be opened exactly if it exists.

* PCQ: `Tool.open_known`, `Tool.open_long_double`, `Tool.open_sound`, `Tool.pvd_unsound`, `Tool.outName_self_iff`, `Tool.outName_numeric`, `Tool.stemName_collides`, `Tool.tsv_keeps`, `Tool.tsv_converts`, `Tool.tsv_destroys_input`, `Tool.entries_eq`, `Tool.explicit_output`, `Tool.no_output`, `Tool.missing_file`, `Tool.usage_order`, `Tool.option_alone`
* PQ: `Tool.outName_spec`, `Tool.last_block_only`

**C61** (proved) Tables of tab-separated values. The texts of numbers are parameters.

* PCQ: `Tsv.convert_table`, `Tsv.lookup`, `Tsv.scalar_sparse_values`, `Tsv.char_breaks_table`
* PQ: `Tsv.vector_values`

**C62** (proved) VTK images. The library vtkImageData is modelled by an array with extent; the writer of the library is trusted; conversions to float and sqrt are parameters. VTK 5 is not covered (there 2D vector fields are allocated as float and written as double).

* P: `Vtk.scalar_spec`
* PCQ: `Vtk.picture`, `Vtk.raster_bij`, `Vtk.too_long`, `Vtk.argmax_spec`, `Vtk.vector_spec`, `Vtk.sparse_spec`, `Vtk.max_not_magnitude`

**C63** (proved) Dense anisotropic grain growth stays on the Gibbs simplex. Exact arithmetic in an ordered field; serial build; energy, mobility and the functions of them are parameters.

* PCQ: `DensePF.aniso_simplex`, `DensePF.marked_spec`, `DensePF.forces3_spec`, `DensePF.rates_spec`, `DensePF.rates_total`, `DensePF.pairValues_simplex`, `DensePF.aniso_bulk`, `DensePF.aniso_local`
* PQ: `DensePF.rates_unmarked`

**C64** (partial) Zener particles do not change (dense examples). True of the isotropic example (iso_pinned). False of the anisotropic one: the rate of field 0 is zero, but after other values were clamped at 0 or 1 the projection onto the simplex rescales field 0 too (witness pinned_dissolves: a particle between two grains shrinks in one step). Proved instead: it is unchanged wherever no value is clamped.

* PCQ: `DensePF.iso_pinned`, `DensePF.pinned_rate`, `DensePF.aniso_pinned_partial`, `DensePF.pinned_dissolves`

**C65** (proved) Dense isotropic grain growth stays bounded. Exact arithmetic in an ordered field; serial build.

* PCQ: `DensePF.iso_bounded`, `DensePF.isoValue_descends`, `DensePF.iso_grain`, `DensePF.iso_unstable`

**C66** (proved) Allen-Cahn and model A stay bounded and lose energy. Exact arithmetic in an ordered field; serial build; the noise is a parameter.

* PCQ: `Relax.modelA_bounded`, `Relax.allenCahn_bounded`, `Relax.acRun_eq`, `Relax.allenCahn_energy`, `Relax.allenCahn_stationary`, `Relax.allenCahn_large_step`

**C67** (proved) The beginners' diffusion programs. Exact arithmetic; serial build.

* PCQ: `Relax.first_correct`, `Relax.first_falling`, `Relax.first_example`, `Relax.second_correct`, `Relax.second_is_first`, `Relax.heat1_fixed_iff`, `Relax.heat_between`, `Relax.heat_conserves`, `Relax.heat2_unstable`, `Relax.heat2_closed`

**C68** (proved) Ostwald ripening conserves concentration but follows no energy. Exact arithmetic in a field; serial build.

* PCQ: `Ostwald.step_eq`, `Ostwald.ostwald_conserves`, `Ostwald.gradient_energy`, `Ostwald.resurrected`, `Ostwald.no_energy`, `Ostwald.repaired_energy`, `Ostwald.resurrected_example`, `Ostwald.wells`, `Ostwald.at_rest`, `Ostwald.second_order_parameter`

**C69** (proved) Anisotropic solidification: bounds, heat balance and lost heat. Exact arithmetic; atan2, cos and sin are the real functions; serial build.

* PCQ: `Solid.step_eq`, `Solid.heat_balance`, `Solid.heat_lost`, `Solid.pure_phase`, `Solid.phase_bounded`, `Solid.growth_iff`, `Solid.melting_symmetric`, `Solid.real_mild`, `Solid.example_bounded`, `Solid.cfl_suffices`, `Solid.reduce_terminates`, `Solid.split_differs`, `Solid.lopsided`
* PQ: `Solid.mild_isotropic`

**C70** (proved) The noise of models A, B and spinodal. Real arithmetic; rand() is a stream of integers in [0,RAND_MAX].

* PCQ: `Noise.gaussian_hangs_iff`, `Noise.gaussian_pair`, `Noise.centre_never_hit`, `Noise.series_bounded`, `Noise.reach_glibc`, `Noise.modelA_glibc`, `Noise.stuck_hangs`, `Noise.spinodal_is_modelB`, `Noise.spinodal_conserves`

**C71** (proved) Initial conditions of the examples. Exact arithmetic; serial build; an unwritten entry is a separate value none.

* P: `Generate.inside_disk`, `Generate.dense_sparse_differ`
* PCQ: `Generate.isoDense_spec`, `Generate.anisoDense_spec`, `Generate.zenerDense_spec`, `Generate.zenerSparse_spec`, `Generate.zenerMC_spec`, `Generate.zener2_unset`, `Generate.zener3_unset`, `Generate.zener1_by_chance`, `Generate.inside_line`, `Generate.insideSparse_line`, `Generate.anisoDense_run`, `Generate.isoDense_run`, `Generate.allenCahn_run`, `Generate.spin_spec`, `Generate.choice_spec`, `Generate.ostwaldNode_spec`, `Generate.seedNode_spec`

**C72** (proved) Restarting on any numbers of processors continues one serial run. Composition of the models of input, ghostswap, update programs and output. Arithmetic is any fixed deterministic operation. Standard (not BGQ) output path; MPI world must be well-formed (blocks not thinner than the ghosts).

* PCQ: `Sessions.output_denotes`, `Sessions.shape_eq`, `Sessions.parallel_step`, `Sessions.serial_step`, `Sessions.session_step`, `Sessions.chain_eq_serial`, `Sessions.raw_sound`, `Sessions.allenCahn_restarts`

**C73** (proved) Voxel files: grid to text and back, short files, and files destroyed by their own converter. Serial build of the tools. Library text conversion of spacings is the parameter Decimal; zlib is the parameter Zlib.

* PCQ: `Voxel.readVox_voxText`, `Voxel.grainSet_card`, `Voxel.mc2vox_text`, `Voxel.voxel_roundTrip`, `Voxel.short_file`, `Voxel.mc2vox_destroys`, `Voxel.default_name`, `Voxel.mc2vox_other_types`

**C74** (proved) The stand-alone compressor cannot read the library's files. zlib is the parameter Zlib with inverse and size bound; text conversion of spacings is the parameter Decimal.

* PCQ: `Voxel.mmsp2z_header`, `Voxel.mmsp2z_old`, `Voxel.mmsp2z_small`, `Voxel.size_of_codes`, `Voxel.mmsp2z_output`

**C75** (proved) Runs of the anisotropic sparse grain growth and Zener examples. Arithmetic in an ordered field; serial build. The tables of energies and mobilities are parameters; fewer than 10^8 fields.

* PCQ: `SparsePF.pairNode_full`, `SparsePF.anisoStep_full`, `SparsePF.anisoRun_full`

**C76** (partial) Particles of the anisotropic sparse Zener example stay as they are. The property is false of the code. Proved: the rate of field 0 is zero, and its value is kept at nodes where no field is cut off; where a field is cut off at zero the particle strictly shrinks, with a concrete run of the example (particle_dissolves).

* PCQ: `SparsePF.pinned_rate`, `SparsePF.particle_value`, `SparsePF.particle_kept_partial`, `SparsePF.particle_shrinks`, `SparsePF.particle_dissolves`

**C77** (proved) The fast-marching tessellation of generators.cpp gives every node a seed nearest in the sum of the coordinate differences. Serial build. Squared differences and sums are assumed below 2^31 (hypothesis). not_euclidean and not_periodic are concrete witnesses.

* PCQ: `Generators.distances_end`, `Generators.distances_nearest`, `Generators.approximateVoronoi_nearest`, `Generators.not_euclidean`, `Generators.not_periodic`

**C78** (proved) The fast-marching tessellation of generators.cpp does not misuse its priority queue on grids with two proper axes. Serial build. Reading a stale or uninitialised heap position is undefined behaviour in the model.

* PCQ: `Generators.distances_ok`, `Generators.approximateVoronoi_ok`, `Generators.distances_row_ub`

**C79** (proved) seedswap of generators.cpp lists a rank's own seeds twice, so grain numbers differ between ranks. MPI_Allgather and MPI_Allgatherv are trusted to deliver the buffers in rank order.

* PCQ: `Generators.seedswap_spec`, `Generators.tessellateMpi_number`, `Generators.grain_split`
* PQ: `Generators.number_differs`

**C80** (proved) Seeds from random numbers and files. Real arithmetic is exact; files are lists of numbers, words that are not numbers are not modelled. The generator is a parameter with values in 0..n for randInt(n).

* PCQ: `Generators.poissonSeeds_inBox`, `Generators.random_end`, `Generators.seedsFromFile_spec`, `Generators.seedsFromFile_empty`, `Generators.written_read`, `Generators.lineSeed_eq`, `Generators.lineSeed_blank`, `Generators.linesSeeds_eq`, `Generators.whole_iff`, `Generators.six_lines`
* PQ: `Generators.poissonSeeds_eq`

**C81** (proved) Honeycomb seeds. seeds[id] before the exchange; spacing not negative.

* PCQ: `Generators.honeycomb_mem`, `Generators.honeycomb_serial`, `Generators.honeycomb_again`, `Generators.honeycomb_astray`
* PQ: `Generators.honeycomb_bad`

**C82** (proved) Converters from file to file. The value type is any linear order with an encoding of fixed width (no NaN, one zero). zlib is assumed to behave, and not to return a different block of the same length (C41). PF2MC and PF2sPF are for files whose vectors all have as many elements as the header says.

* PCQ: `ConvertFile.mc2pf_file`, `ConvertFile.mc2spf_file`, `ConvertFile.pf2mc_file`, `ConvertFile.pf2spf_file`, `ConvertFile.spf2mc_file`, `ConvertFile.spf2pf_file`, `ConvertFile.mc_pf_mc_files`, `ConvertFile.mc_spf_mc_files`, `ConvertFile.mc2pf_file_negative`, `ConvertFile.spf2pf_file_3d`, `ConvertFile.convert_safe`, `ConvertFile.other_types`, `ConvertFile.convert_refuses`, `ConvertFile.front_refuses`, `ConvertFile.front_cut`, `ConvertFile.front_header`, `ConvertFile.programs_refuse`, `ConvertFile.mc2spf_one_field`, `ConvertFile.default_names`, `ConvertFile.missing_input`, `ConvertFile.other_dimensions`

**C83** (proved) Command lines of mmsp2png and mmsp2xyz. atof is a parameter; decimal_first uses the exact value of a decimal number in place of it.

* PCQ: `Options.parse_render`, `Options.commandLine_render`, `Options.contol_drops`, `Options.contol_ub`, `Options.contol_throws`, `Options.contour_ub`, `Options.zoom_ub`, `Options.field_cut`, `Options.field_wrong`, `Options.decimal_first`, `Options.unknown_is_data`

**C84** (proved) Point clouds of mmsp2xyz. Values are elements of an ordered field in place of floating-point numbers; formatting of the numbers is left out.

* PCQ: `Cloud.scalars_spec`, `Cloud.scalars_normals`, `Cloud.vectors_spec`, `Cloud.sparses_spec`, `Cloud.vectors_options`, `Cloud.places_distinct`, `Cloud.near_scale`, `Cloud.near_mag_negative`, `Cloud.near_self`, `Cloud.vectors_no_field`, `Cloud.header_short`
* PQ: `Cloud.near_none`, `Cloud.near_zero`

**C85** (proved) Progress bar. Output is a list of events; date and time are left out.

* P: `Progress.one_step`
* PCQ: `Progress.loop_bullets`, `Progress.twenty_points`, `Progress.clock_spec`
* PQ: `Progress.many_steps`

**C86** (proved) Table of mmsp2topo. Volumes are elements of an ordered field in place of float; the conversion of a centre to int is a parameter, undefined for 0/0. The hypothesis that no face has a single edge, and on a plane that grains are met before they touch, are those outside which C46 shows the program to abort or to be undefined.

* PCQ: `Topology.mmsp2topo3`, `Topology.mmsp2topo2`, `Topology.table3`, `Topology.table2`, `Topology.names_spec`, `Topology.accepts_iff`
* PQ: `Topology.average_spec`, `Topology.span_spec`, `Topology.span_decreasing`

**C87** (proved) Grain growth, ripening and solidification in parallel. The parallel theorems take the right-hand side as a function without laws, so they hold for float arithmetic. Ranks run statement by statement (freedom of the schedule inside ghostswap is C10). Fields of a sparse grid are assumed to come from a set small enough for an int to count. For solidification the link to the model of C69 is made node by node.

* PCQ: `ParallelRun.isoDense_parallel`, `ParallelRun.anisoDense_parallel`, `ParallelRun.sparse_parallel`, `ParallelRun.ostwald_parallel`, `ParallelRun.solid_parallel`, `ParallelRun.isoDense_model`, `ParallelRun.anisoDense_model`, `ParallelRun.isoSparse_model`, `ParallelRun.anisoSparse_model`, `ParallelRun.ostwald_model`, `ParallelRun.solid_flux_serial`, `ParallelRun.solid_value_serial`, `ParallelRun.dense_buffers`, `ParallelRun.mixed_buffers`, `ParallelRun.sparse_buffers`, `ParallelRun.zener_parallel_differs`
* PQ: `ParallelRun.isoNode_local`, `ParallelRun.anisoNode_local`

**C88** (proved) The result does not depend on how steps are divided into calls. A call of either build finds the field on the nodes of oldGrid only; everything else is arbitrary (of the right length). C72 is the same with files between the calls, for Allen-Cahn. The right-hand sides are functions without laws, so the theorems hold for float arithmetic.

* PCQ: `ParallelRun.restart`, `ParallelRun.call_ends`, `ParallelRun.calls_exist`, `ParallelRun.allenCahn_restart`, `ParallelRun.cahnHilliard_restart`, `ParallelRun.isoDense_restart`, `ParallelRun.anisoDense_restart`, `ParallelRun.ostwald_restart`, `ParallelRun.sparse_split_differs`

**C89** (proved) Convex splitting on ranks computes what it computes serially. The serial program is the model of C57. update_agree holds for any right-hand side that reads oldGrid at the node and newGrid at the node and its nearest neighbours, without arithmetic laws for the fields; only the sum of residuals is taken in a commutative monoid (MPI_Allreduce and the loop add in different orders, so with floats the residuals may differ in the last bit). All ranks execute a statement before the next begins, as in C50; C98 removes this assumption.

* PCQ: `Board.convex_parallel`, `Board.update_agree`, `Board.residual_agree`, `Board.size_agree`, `Board.odd_period_differs`, `Board.negative_differs`

**C90** (proved) Whole parallel runs end, and end as the serial run, whatever the speed of ranks and messages. Extends C11 (one ghostswap under every schedule) and removes the lock-step assumption of C50 and C87. Assumed of MPI: messages are neither lost nor altered, a receive takes a message with its source, destination and tag. A failed rank goes on with its failure as its value. The runs are those of the statements; reductions are added in C98; files are not included.

* PCQ: `Async.runs_end`, `Async.runs_go_on`, `Async.runs_agree`, `Async.runs_exist`, `Async.disciplined_ends`, `Async.allenCahn_ends`, `Async.cahnHilliard_ends`, `Async.isoDense_ends`, `Async.anisoDense_ends`, `Async.sparse_ends`, `Async.ostwald_ends`, `Async.solid_ends`

**C91** (proved) Poisson's equation of a level has one solution and the smoother converges to it. Exact arithmetic in an ordered field (Archimedean for the limit). Extends the claim of C56 that the error never grows. The rate is a bound, not the best one.

* PCQ: `Multigrid.smooth_converges`, `Multigrid.rate_equal`, `Multigrid.coarsest_error`, `Multigrid.solvable`, `Multigrid.smooth_limit`

**C92** (proved) In one dimension multigrid is four sweeps. Exact arithmetic. The claim is about what the code computes; as a solver it is wrong in one dimension.

* PCQ: `Multigrid.line_cycle`, `Multigrid.line_update`, `Multigrid.line_far`, `Multigrid.line_small`, `Multigrid.solution_large`, `Multigrid.line_ratio`, `Multigrid.line_wrong`

**C93** (proved) Multigrid on several ranks reads outside the memory of the upper ranks. Ranks that are upper only along a later axis read wrong elements inside their memory; that case is not part of the claim.

* PCQ: `Multigrid.updateOn_serial`, `Multigrid.upper_update`, `Multigrid.line_ranks`

**C94** (proved) The Ising and Potts examples sample the Gibbs distribution of their energies. Assumes independent uniform results of rand(); exp and the division by RAND_MAX exact. Serial build: on several ranks sites are visited concurrently. rho and K depend on grid, temperature and RAND_MAX.

* PCQ: `SpinSampling.ising_total`, `SpinSampling.ising_balance`, `SpinSampling.ising_gibbs`, `SpinSampling.ising_samples`, `SpinSampling.potts_total`, `SpinSampling.potts_gibbs`, `SpinSampling.potts_samples`, `SpinSampling.spinShare_eq`, `SpinSampling.spinShare_differs`, `SpinSampling.heisenberg_no_energy`, `Sampling.accepts_share`

**C95** (proved) Rounding keeps phase fields, diffusion, random numbers and grey levels in their ranges. No overflow or underflow, no extended precision, no fused multiply-add: the exponent is unbounded in fl. Cells of type double (as in the examples): for float, 1.0/sum is rounded twice.

* PCQ: `Rounded.projectFl_range`, `Rounded.projectFl_sum`, `Rounded.rounded_run`, `Rounded.rounded_step`, `Rounded.diffusion_rounded`, `Rounded.constant_eq`, `Rounded.randFl_range`, `Rounded.randFl_ends`, `Rounded.randFl_mono`, `Rounded.randExcFl_eq`, `Rounded.randDblExcFl_eq`, `Rounded.rand53Fl_eq`, `Rounded.rand_bound`, `Rounded.randExc_bound`, `Rounded.randDblExc_bound`, `Rounded.shadeFl_spec`, `Rounded.shadeFl_ends`, `Rounded.shadeFl_mono`

**C96** (proved) The beginners' diffusion programs end at the straight line; the 2D one diverges. Serial runs. Exact arithmetic except in first_steady_rounded and first_program, where the exponent is unbounded. The 2D statements are in exact arithmetic; 0.3 stands for 3/10.

* PCQ: `Steady.first_steady`, `Steady.second_steady`, `Steady.first_steady_rounded`, `Steady.first_program`, `Steady.heat2_diverges`, `Steady.heat2_unbounded`

**C97** (proved) Phase-field runs restarted from files on any numbers of ranks. Without compression (with zlib use chain_eq_serial of C72, whose hypothesis excludes the collision of C16). Fields of sparse cells come from a set small enough for the blocks to fit. Ostwald ripening and solidification, which use grids of two cell types, are in C99.

* PCQ: `Sessions.bounded_size`, `Sessions.bounded_fits`, `Sessions.bounded_sound`, `Sessions.restarts`, `Sessions.isoDense_restarts`, `Sessions.anisoDense_restarts`, `Sessions.sparse_restarts`

**C98** (proved) Convex splitting with its reductions under every schedule of the ranks. Extends C90 by reductions and removes the lock-step assumption of C89. Follows states what lock-step execution (mpiRun of C50, sums over the ranks) does. Assumed of MPI_Allreduce: it returns after all ranks have called it, on every rank with the sum; sums are exact (commutative monoid).

* PCQ: `Collective.run_bounded`, `Collective.run_goes_on`, `Collective.run_ended`, `Collective.run_aborts`, `Collective.run_exists`, `Collective.update_follows`, `Collective.convex_every_schedule`

**C99** (proved) Ostwald ripening and solidification restarted from files on any numbers of ranks. Without compression. Scalars are modelled as lists of one entry, with the buffer functions of scalars. Arithmetic is any fixed deterministic operation.

* PCQ: `Sessions.mixed_restarts`, `Sessions.ostwald_restarts`, `Sessions.solid_restarts`

**C100** (proved) Parallel Monte Carlo grain growth is a serial sequence of attempts. Sides of even length and one ghost layer are what the sublattice exchange needs (C12, where the failures without them are proved). The ranks go together from barrier to barrier; that the exchange itself gives the same under every schedule is C12. The number of attempts of the serial program is the sum over the ranks, which is not the number that the serial program would compute for itself (num_grids_to_flip counts sites one past the upper end, C54).

* PCQ: `MonteCarlo.ranks_serialise`, `MonteCarlo.ranks_return_iff`, `MonteCarlo.ranks_states`, `MonteCarlo.ranks_descend`

**C101** (partial) Parallel spin models return on every number of ranks. Claim false of the code; ising_hangs, potts_hangs, heisenberg_hangs are the witnesses, spin_returns_iff the exact condition. The missing part of the _partial theorems is the case of ranks with different numbers of nodes. int(sqrt(n)) is the integer square root (true of double for every int). A rank that has returned is taken to send no further ghost messages.

* PCQ: `SpinSchedule.returns_iff`, `SpinSchedule.returns_or_hangs`, `SpinSchedule.spin_returns_iff`, `SpinSchedule.ising_hangs`, `SpinSchedule.potts_hangs`, `SpinSchedule.heisenberg_hangs`, `SpinSchedule.zener_returns`, `SpinSchedule.ising_returns_partial`, `SpinSchedule.potts_returns_partial`, `SpinSchedule.heisenberg_returns_partial`, `SpinSchedule.isingAttempt_eq`, `SpinSchedule.pottsAttempt_eq`, `SpinSchedule.heisenbergAttempt_eq`, `Async.finished_calls`, `Async.all_end`, `Async.each_go_on`

**C102** (proved) Parallel spin models: one result for every schedule, and spins stay spins. Attempts are those of Verif/Spin.lean (exact arithmetic, arbitrary acceptance rule), proved equal to the statements used here (isingAttempt_eq and the like of C101). Heisenberg: the drawn directions are assumed to be unit vectors.

* PCQ: `SpinSchedule.ising_ends`, `SpinSchedule.potts_ends`, `SpinSchedule.heisenberg_ends`, `SpinSchedule.update_ends`, `Async.each_result`, `Async.eachRun_keeps`

**C103** (proved) The parallel Ising model does more than reorder attempts. The ring of eight nodes is a concrete witness. Exact arithmetic.

* PCQ: `SpinSchedule.ising_not_serial`, `SpinSchedule.border_eq`, `SpinSchedule.ring_run`

**C104** (proved) Zener pinning generated on several ranks: what the file holds. Periodic outer faces (the default, which the examples do not change). Finding: the parallel generate differs from the serial one (cut particles, number of particles per rank instead of per grid). Blocks must fit an int of MPI and, with zlib, must not be compressed to their own length (Writes). rand() of a rank is an arbitrary sequence. Exact numbers 0 and 1.

* PCQ: `GenerateRanks.zener_spec`, `GenerateRanks.generate_denotes`, `GenerateRanks.serial_denotes`, `GenerateRanks.zener_file`, `GenerateRanks.monteCarlo_file`, `GenerateRanks.dense_file`, `GenerateRanks.sparse_file`, `GenerateRanks.particles_cut`, `GenerateRanks.monteCarlo_cut`, `GenerateRanks.placed_ge`, `GenerateRanks.placed_square`

**C105** (proved) Grain growth from generate to the last restart. Sparse: the serial program is the sequence of update calls (each begins with an empty new grid). Right-hand sides are parameters, as in C97; lock-step ranks (removed by C90). Uncompressed files, blocks below 2^31-1 bytes.

* PCQ: `GenerateRanks.started`, `GenerateRanks.iso_whole`, `GenerateRanks.aniso_whole`, `GenerateRanks.sparse_whole`, `GenerateRanks.isoSparse_whole`, `GenerateRanks.anisoSparse_whole`

**C106** (proved) Convex splitting starts with a consistent chemical potential on any number of ranks. Exact arithmetic in any field; f' and K are parameters. Grids of pairs (the two fields). Lock-step ranks around ghostswap.

* PCQ: `GenerateConvex.convex_ranks`, `GenerateConvex.convex_serial`, `GenerateConvex.convex_file`, `GenerateConvex.convex_same`

**C107** (proved) How far rounding can move the mass in the explicit Cahn-Hilliard update. The model is that of C29 and C50, run on a type whose operations round (C95). No overflow, underflow, infinities, fused multiply-add or extended precision; pow(phi,3) is phi*phi*phi. For ranks the cells are sent by any buffer functions that round-trip.

* PCQ: `RoundConserve.step_drift`, `RoundConserve.update_drift`, `RoundConserve.cahnHilliard_drift`, `RoundConserve.shipped_drift`, `RoundConserve.shipped_loses`, `RoundConserve.serialRun_update`, `RoundConserve.ranks_drift`

**C108** (proved) Moving the initial field along periodic axes moves the result. The programs are those of C50. Sides must not be shorter than the stencil (longer on mirror axes). Other axes may have any boundary conditions, but the shift must not move along them. The arithmetic is arbitrary, so rounding is covered.

* PCQ: `Symmetry.run_moves`, `Symmetry.shift_run`, `Symmetry.uniform_run`, `Symmetry.shift_ranks`, `Symmetry.allenCahn_shift`, `Symmetry.cahnHilliard_shift`, `Symmetry.isoDense_shift`, `Symmetry.anisoDense_shift`, `Symmetry.sparse_shift`, `Symmetry.ostwald_shift`, `Symmetry.solid_shift`

**C109** (proved) Change of sign, exchange of axes and reflection. The programs are those of C50. pow(phi,3) is phi*phi*phi; no overflow, underflow, fused multiply-add or extended precision. The field with which reflection fails has the values -2^53, 1/2, 2^53.

* -: `Symmetry.rhs_odd`
* PCQ: `Symmetry.allenCahn_moves`, `Symmetry.cahnHilliard_moves`, `Symmetry.allenCahn_sign`, `Symmetry.cahnHilliard_sign`, `Symmetry.oddNumbers_num`, `Symmetry.allenCahn_turn`, `Symmetry.cahnHilliard_turn`, `Symmetry.symmetric_stays`, `Symmetry.plainSums_num`, `Symmetry.allenCahn_exchange`, `Symmetry.cahnHilliard_exchange`, `Symmetry.reflection_fails`
* PQ: `Symmetry.oddNumbers_ring`

**C110** (proved) The explicit Cahn-Hilliard update loses energy. Exact arithmetic over an ordered field; rounding of the mass is in C107. The energy is that of C66. For (2) the bound on the initial energy does not grow with the number of nodes, so on large grids with strong noise only (1) applies.

* PCQ: `Explicit.cahnHilliard_energy`, `Explicit.cahnHilliard_trapped`, `Explicit.cahnHilliard_rests`, `Explicit.cahnHilliard_stationary`, `Explicit.shipped_damped`, `Explicit.cahnHilliard_diverges`, `Explicit.ranks_energy`

**C111** (proved) Allen-Cahn in floating point never leaves its bounds. Arithmetic is that of C107 (`Num p`: unbounded exponent, so no overflow; the claim itself shows that none can occur as all intermediate values are small; underflow is not modelled). The bounds speak about the nodes; ghosts are covered by C50.

* PCQ: `RoundConfine.timesThree_cube`, `RoundConfine.roundedCube_cube`, `RoundConfine.initial_within`, `RoundConfine.allenCahn_within`, `RoundConfine.allenCahn_pinned`, `RoundConfine.ranks_within`, `RoundConfine.ranks_pinned`, `RoundConfine.shipped_pinned`, `RoundConfine.shipped_within`, `RoundConfine.shipped_turns`

**C112** (proved) Allen-Cahn: comparison, stability, and how far floating point is from exact arithmetic. Floating-point arithmetic and pow as in C111. In (4) the exact run has the rounded coefficients r, u, K and weights 1/dx^2, but may have another dt and M; with the shipped constants only dt = 0.01 is not exact.

* PCQ: `Compare.allenCahn_ordered`, `Compare.allenCahn_stable`, `Compare.allenCahn_well`, `Compare.large_step_disorders`, `Compare.allenCahn_distance`, `Compare.allenCahn_distance_one`, `Compare.shipped_distance`, `Compare.shipped_thousand`, `Compare.ranks_ordered`, `Compare.ranks_distance`

**C113** (proved) Allen-Cahn in IEEE doubles, with overflow and underflow, never leaves [-1,1]. Round to nearest even, no extended precision or fused operations. Signed zero is not distinguished, all results that are not finite are one value. The accuracy of pow is an assumption (`Cube`), met by two products and by the rounded cube.

* PCQ: `IeeeConfine.allenCahn_unit`, `IeeeConfine.ranks_unit`, `IeeeConfine.allenCahn_distance`, `IeeeConfine.shipped_pinned`, `IeeeConfine.shipped_unit`, `IeeeConfine.shipped_thousand`, `IeeeConfine.initial_unit`, `IeeeConfine.timesThree_cube`, `IeeeConfine.roundedCube_cube`, `IeeeConfine.huge_start_overflows`, `Ieee.bits_inj`, `Ieee.one_bytes`

**C114** (proved) Random starts on any ranks, and Allen-Cahn in doubles from generate to the last restart. Arithmetic as in C113; MPI as in C50 and C72. Not compressed. The random sequences of the ranks are arbitrary, also equal. RAND_MAX below 2^31.

* PCQ: `IeeeWhole.fill_spec`, `IeeeWhole.begun`, `IeeeWhole.startValue_unit`, `IeeeWhole.first_file`, `IeeeWhole.every_file_unit`, `IeeeWhole.last_file_right`

**C115** (proved) What the export tools show of a run. The texts of numbers are parameters without tabs and newlines; pictures in exact arithmetic, without contour marks (those are C58); cells of type scalar<T> are written with another type line and not included; what a tool reads of the header for itself is what its grid object reads. Libraries that compress the PNG and VTK files as in C51 and C58.

* PCQ: `Export.opened`, `Export.export_eq`, `Export.Same.tsv`, `Export.Same.vti`, `Export.Same.png`, `Export.Same.xyz`, `Export.Same.xyzVector`, `Export.Same.xyzSparse`, `Export.Same.map`, `Export.field_congr`, `Export.tsv_file`, `Export.vti_file`, `Export.png_file`, `Export.xyz_file`, `Export.xyz_vectors`, `Export.xyz_sparse`, `Export.sessions_shown`, `Export.unit_picture`

**C116** (proved) Convex splitting from generate to the last restart. Exact arithmetic; a file format that can represent the values that occur (P: those that are written, bounded in size), and square roots that are not too small (UpperRoot). update starts each session with newGrid equal to oldGrid, so the division into calls matters and is the same in the serial program. Ranks proceed from collective to collective together; that this is no loss is C98.

* P: `ConvexRestart.respace_good`
* PCQ: `ConvexRestart.sitting_step`, `ConvexRestart.sittings`, `ConvexRestart.calls_states`, `ConvexRestart.chain_mass`, `ConvexRestart.calls_rest`, `ConvexRestart.whole`, `ConvexRestart.writeBuffer_nodes`, `ConvexRestart.nodes_denote`, `ConvexRestart.spaced_eq`

**C117** (proved) Isotropic grain growth and Zener pinning lose energy and come to rest. Exact arithmetic in an ordered field. The energy is the one whose derivative C65 identifies; for Zener pinning it includes the particle field, which does not move. Lock-step ranks (removed by C90).

* PCQ: `DensePF.iso_energy`, `DensePF.iso_stationary`, `DensePF.iso_spent`, `DensePF.iso_rests`, `DensePF.grainEnergy_ge`, `DensePF.grainEnergy_least`, `DensePF.iso_ranks`, `DensePF.shipped_mild`, `DensePF.iso_large_step`

**C118** (proved) Isotropic grain growth and Zener pinning in IEEE doubles stay finite and between 0 and 1, and grain interiors do not change by one bit. Trusted: IEEE 754 binary arithmetic without fused multiply-add or extended precision; pow as stated (two products and the correctly rounded cube both qualify). The two zeros are one number. T is double; for vector<float> the program mixes formats, which is not modelled. Lock-step ranks (removed by C90).

* PCQ: `IeeeDense.growth_frac`, `IeeeDense.zener_frac`, `IeeeDense.ranks_frac`, `IeeeDense.isoTerm_frac`, `IeeeDense.shipped_gentle`, `IeeeDense.shipped_frac`, `IeeeDense.interior_kept`, `IeeeDense.ranks_interior`, `IeeeDense.timesThree_cubed`, `IeeeDense.roundedCube_cubed`, `IeeeDense.large_step_leaves`
* PQ: `IeeeDense.exact_link`

**C119** (proved) Grain growth and Zener pinning in doubles from generate to the last restart, and what uninitialised memory does. Joins C97, C104, C105 and C118; arithmetic as in C118, MPI as in C50 and C72; uncompressed files, blocks below 2^31-1 bytes. Finding: generate of the Zener example assigns fields 0 and 1, and field 2 only inside the grains. In (4) `not finite` is an absorbing value of the model, as NaN is in IEEE arithmetic.

* PCQ: `IeeeDense.chain_frac`, `IeeeDense.chain_interior`, `IeeeDense.growth_whole`, `IeeeDense.zener_whole`, `IeeeDense.zener_garbage`, `IeeeDense.bad_spreads`

**C120** (proved) The Poisson example under the driver: every second file has the wrong sign. Exact arithmetic in an ordered field; serial build; one dimension (as in C92). Builds on C30 and C92.

* PCQ: `Multigrid.call_flips`, `Multigrid.calls_sign`, `Multigrid.files_alternate`, `Multigrid.solution_negative`, `Multigrid.increments_matter`

**C121** (proved) Grain growth and Zener pinning: nearby runs stay nearby, and doubles stay near exact arithmetic. IEEE numbers as in C113/C118 (round to nearest, gradual underflow, overflow checked not to occur). pow is any function within two roundings of the cube and not negative. Parallel part builds on C87.

* PCQ: `DenseDistance.node_frac`, `DenseDistance.node_gap`, `DenseDistance.growth_stable`, `DenseDistance.zener_stable`, `DenseDistance.step_stray`, `DenseDistance.growth_distance`, `DenseDistance.zener_distance`, `DenseDistance.shipped_thousand`, `DenseDistance.ranks_thousand`, `DenseDistance.two_machines`

**C122** (proved) Grain growth and Zener pinning: which grain can be where. Parts 1-4 in exact arithmetic, 5 in any, 6 in IEEE numbers as in C113/C118; pow gives 0 for 0 in part 6. Programs as in C118/C121, conversion as in C39.

* PCQ: `DenseDistance.node_mono`, `DenseDistance.node_dominates`, `DenseDistance.growth_order`, `DenseDistance.zener_order`, `DenseDistance.particles_order`, `DenseDistance.growth_below`, `DenseDistance.below_not_shown`, `DenseDistance.growth_renumbered`, `DenseDistance.twins`, `DenseDistance.isoTerm_absent`, `DenseDistance.field_reach`, `DenseDistance.ranks_reach`, `DenseDistance.large_step_swaps`

**C123** (proved) Monte Carlo grain growth is at zero temperature, and when it stops. Program as in C54/C100, acceptance test in IEEE doubles. Assumed of exp: 0 for arguments up to -746 (true of the correctly rounded exp, bestExp_underflows). exact_accepts: with real numbers a rand() of 0 would be accepted.

* PCQ: `MonteCarlo.kT_is`, `MonteCarlo.never_hot`, `MonteCarlo.bestExp_underflows`, `MonteCarlo.energy_kin`, `MonteCarlo.energy_double`, `MonteCarlo.shipped_cold`, `MonteCarlo.rest_iff`, `MonteCarlo.shipped_descends`, `MonteCarlo.shipped_rests`, `MonteCarlo.shipped_ranks`, `MonteCarlo.flat_settled`, `MonteCarlo.flat_forever`

**C124** (proved) The Ising and Potts examples in doubles sample the same distributions. Programs as in C94 (serial, rand() uniform and independent), acceptance test in IEEE doubles. Assumed of exp: off by at most 2^-46 for arguments up to 0 (true of the correctly rounded exp, bestExp_accurate). The bounds grow with n: for n of the order of RAND_MAX they say nothing.

* PCQ: `SpinDouble.sum_exact`, `SpinDouble.ising_exact`, `SpinDouble.potts_exact`, `SpinDouble.temp_exact`, `SpinDouble.ising_test`, `SpinDouble.potts_test`, `SpinDouble.differs_once`, `SpinDouble.ising_close`, `SpinDouble.ising_ieee_samples`, `SpinDouble.potts_close`, `SpinDouble.potts_ieee_samples`, `SpinDouble.bestExp_accurate`

**C125** (proved) Monte Carlo Zener pinning: particles do not pin for ever. Program as in C53 (serial, rand() uniform and independent), energies and mobilities of anisotropy.hpp as shipped (1 for different spins), acceptance tests in IEEE doubles, dE as in C53 (exact; integers up to 28). Assumed of exp: positive between -128 and 128 (true of the correctly rounded exp, bestExp_positive). (5) is a witness on 16 nodes.

* PCQ: `ZenerEnd.single_stays`, `ZenerEnd.rests_iff`, `ZenerEnd.grains_vanish`, `ZenerEnd.bound_below_one`, `ZenerEnd.iso_warm`, `ZenerEnd.aniso_warm`, `ZenerEnd.bestExp_positive`, `ZenerEnd.walls_rest`

**C126** (proved) Monte Carlo Zener pinning on several ranks. The attempt is that of C53 (zenerAttempt_eq), with the calls of ghostswap as in C101 and the message passing of C90. Assumed: blocking sends and receives are matched in order per pair of ranks; rand() and the acceptance tests are arbitrary. Energies in a linearly ordered field.

* PCQ: `ZenerRanks.zenerAttempt_eq`, `ZenerRanks.zener_always_returns`, `ZenerRanks.zener_ends`, `ZenerRanks.single_grain_ranks`

**C127** (proved) The random directions of the Heisenberg example, with real numbers and in doubles. Assumed of the library: cos and sin between -7 and 7 accurate to 2^-52, acos between -1 and 1 to 2^-51 (true of correctly rounded functions, best_trig); exp arbitrary. Uniformity is over equally likely results of rand(). Whether parallel runs return is C101.

* PCQ: `HeisenbergDir.drawn_unit`, `HeisenbergDir.run_unit`, `HeisenbergDir.patch_share`, `HeisenbergDir.mean_drawn`, `HeisenbergDir.acos_defined`, `HeisenbergDir.psi_defined`, `HeisenbergDir.drawn_double`, `HeisenbergDir.sum_close`, `HeisenbergDir.double_ends`, `HeisenbergDir.best_trig`

**C128** (proved) Potts and Heisenberg: runs with the same random numbers become equal whatever grid they start from. Exact arithmetic, one rank, rand() uniform and independent. The rate is that of attempts accepted because rand() returned 0; the true rate is not claimed. The Ising example proposes the opposite of the present spin, so the argument does not apply to it.

* PCQ: `Coalesce.heisenberg_meets`, `Coalesce.heisenberg_settles`, `Coalesce.potts_meets`, `Coalesce.potts_settles`

**C129** (proved) Convex splitting: every step has exactly one solution, and the iteration has exactly one fixed point. Exact real arithmetic, one rank. That the iteration reaches the solution is not claimed; update stops after a bounded number of iterations or when the residual is small (C57).

* PCQ: `ConvexSolution.solution_unique`, `ConvexSolution.solution_exists`, `ConvexSolution.vanilla_step`, `ConvexSolution.parametric_step`, `ConvexSolution.vanilla_fixed`, `ConvexSolution.parametric_fixed`, `ConvexSolution.implicit_two`

**C130** (proved) Convex splitting: the energy and mass that reportEnergy computes. Exact arithmetic; component 1 of the gradient, which the function does not use, is left out. The function is not called and prints only the time step; the factor dV of the commented-out line is left out.

* PCQ: `ReportEnergy.report_serial`, `ReportEnergy.report_ranks`, `ReportEnergy.report_swapped`, `ReportEnergy.centred_le`, `ReportEnergy.centred_bounded`, `ReportEnergy.report_rises`

**C131** (proved) Tessellation with random seeds: how many grains there are. With sides that are no powers of two, returning depends on the sequence of the generator: the theorems speak about runs that return within the fuel. (3) counts outcomes; that the generator produces all of them equally often is not claimed.

* -: `RandomSeeds.ranks_coincide`
* PCQ: `RandomSeeds.seeds_inside`, `RandomSeeds.seeds_returned`, `RandomSeeds.ranks_differ`, `RandomSeeds.same_draws`, `RandomSeeds.random_grains`, `RandomSeeds.all_grains`, `RandomSeeds.no_repeats`, `RandomSeeds.repeats_certain`
* PQ: `RandomSeeds.lost_grains`

**C132** (proved) Convex splitting: an accepted step is close to the solution. Exact arithmetic with the exact square root, one rank. The simple energy (VANILLA) needs another argument, because its implicit part c^3 has derivative zero at c = 0: see C136.

* PCQ: `ConvexAccepted.residual_error`, `ConvexAccepted.accepted_error`, `ConvexAccepted.benchmark_factor`, `ConvexAccepted.uniform_accepted`

**C133** (proved) Cells written to a file are read back. Writing does not fail and new succeeds for sizes that are not negative. Entries are trivially copyable. Grids do not use these functions: grid::read and write go through buffers (C13 to C16).

* P: `CellFiles.vector_file_ambiguous`
* PCQ: `CellFiles.prims_restored`, `CellFiles.sparses_restored`, `CellFiles.vectors_restored_iff`, `CellFiles.vector_cut`, `CellFiles.sparse_file_unambiguous`, `CellFiles.nothing_left`, `CellFiles.sparse_cut_short`, `CellFiles.sparse_negative`

**C134** (proved) Point: what its operators compute, and for which points they are defined. Floating-point arithmetic is exact. mmsp2topo applies these operators only where the factor or divisor converts exactly; the other cases arise in point_test.cpp or not at all in this repository.

* PCQ: `Pts.subscript`, `Pts.mulAssign_iff`, `Pts.small_factor`, `Pts.whole_divisor`, `Pts.half`, `Pts.timesInt_exact_iff`, `Pts.distance_iff`, `Pts.distance_cube`, `Pts.distance_metric`
* PQ: `Pts.plus_minus`

**C135** (proved) mmsp2topo: mean and span of the centres printed. Exact arithmetic; one axis, since the axes do not influence each other. Finding: the test for the maximum is an else branch of the test for the minimum, so the first grain never counts for the maximum.

* PCQ: `CentreSpan.lower_end`, `CentreSpan.upper_end_iff`
* PQ: `CentreSpan.mean_printed`, `CentreSpan.upper_end_zero`

**C136** (proved) Convex splitting: an accepted step is close to the solution, simple energy. Exact arithmetic with the exact square root, one rank. The constant grows with the size of the grid, unlike that of C132.

* PCQ: `ConvexVanilla.poincare`, `ConvexVanilla.residual_error'`, `ConvexVanilla.vanilla_accepted_error`, `ConvexVanilla.vanilla_uniform_accepted`

**C137** (proved) MTRand: which seeds give which numbers, seeds from the clock, normal deviates. 64-bit unsigned long, time_t and clock_t, least significant byte first; what /dev/urandom delivers, the time and the clock are parameters. randNorm in exact real arithmetic, with rand() = randInt()/(2^32-1); its loop is bounded by fuel. Finding: the counter in hash does not prevent equal seeds at different times.

* PCQ: `MTRand.seed_determined`, `MTRand.clock_streams`, `MTRand.clock_collision`, `MTRand.auto_never_stuck`, `MTRand.randNorm_spec`, `MTRand.deviate_circle`, `MTRand.deviate_bound`, `MTRand.randNorm_bound`, `RandomSeeds.rank_streams`, `RandomSeeds.ranks_independent`, `RandomSeeds.ranks_later`
* PQ: `MTRand.clock_counts`

**C138** (proved) MTRand: the numbers repeat from the first one on; which bounded draws return. That the period is exactly 2^19937 - 1 is not claimed (it rests on a computation with polynomials of that degree).

* PCQ: `MTRand.seed_repeats`, `MTRand.array_repeats`, `MTRand.bounded_draw`

**C139** (proved) MTRand: which streams of numbers a seed array can lead to. Corrects the comment at 210-213. The array of 624 words is constructed by running the two loops of seed backwards.

* PCQ: `MTRand.array_reaches`, `MTRand.array_or_number`

**C140** (proved) MTRand: which seed arrays lead to the same numbers. (4) shows that the bound 622 in (1) is sharp. Which arrays of different length agree in general is not treated; (2) gives one family. Arrays of more than 624 words are not treated. That uniform words make the reachable streams equally likely follows from (3) by counting; probability itself is not modelled.

* PCQ: `MTRand.arrays_differ`, `MTRand.arrays_alias`, `MTRand.arrays_623`, `MTRand.arrays_many`, `MTRand.arrays_exactly`

## 8. Modules

| module | content |
|---|---|
| AggregatedOutput | Parallel output, aggregating path |
| AggregatedOutputProps | When the aggregating writer works |
| Anisotropy | Tables of boundary energies and mobilities (C45) |
| AsyncReduce | Reductions on processes that run at their own speed |
| AsyncReduceProps | Property C98: reductions under every schedule |
| AsyncRun | Whole programs on processes that run at their own speed |
| AsyncRunProps | Property C90: whole programs under every schedule |
| Boundary | `check_boundary` and the boundary-condition enumeration |
| BoundaryProps | Properties C01, C02: what a boundary condition does to a coordinate |
| Buffer | Byte buffers: cells and grid regions |
| BufferLemmas | Helper lemmas for buffers |
| BufferProps | Properties C13, C14: buffer round trips |
| CellFiles | Property C133: cells written to and read from a file |
| CentreSpan | Property C135: the span of the centres that mmsp2topo prints |
| Cloud | Point clouds |
| CloudProps | Point clouds: which points are written |
| Coalesce | Runs with the same random numbers become equal (C128) |
| Compare | Property C112: what two Allen-Cahn runs have to do with each other |
| Conserve | Discrete conservation on serial grids |
| Convert | Converting between Monte Carlo, phase-field and sparse phase-field files |
| ConvertFile | The converters as programs from file to file |
| ConvertFileProps | Property C82: the converters from file to file |
| ConvertProps | Property C39: the converters keep the microstructure |
| ConvertSparse | Property C39: the converters from and to sparse grids |
| ConvexAccepted | How far an accepted step is from the solution (C132) |
| ConvexRestart | Property C116: convex splitting from `generate` to the last restart |
| ConvexSolution | A step of convex splitting has exactly one solution (C129) |
| ConvexSplit | The Cahn-Hilliard example with convex splitting |
| ConvexSplitProps | The Cahn-Hilliard example with convex splitting: claims |
| ConvexSplitRun | The Cahn-Hilliard example with convex splitting: iteration, mass and energy |
| ConvexVanilla | How far an accepted step is from the solution: the simple energy (C136) |
| Decomp | MPI domain decomposition: `grid<dim,T>::setup`, MPI part |
| DecompLemmas | Helper lemmas for the domain decomposition |
| DecompProps | Properties C05-C08: domain decomposition |
| DenseDistance | Property C121: two runs of the isotropic grain-growth and Zener-pinning examples, and how far the `double`s are from exact arithmetic |
| DenseEnergy | Property C117: the isotropic dense examples lose energy |
| DenseOrder | Property C122: which grain can be where in the isotropic grain-growth and Zener-pinning examples |
| DensePF | Dense phase fields |
| DensePFProps | Properties C63, C64, C65: dense phase fields |
| Driver | The main program |
| DriverExample | When the main program generates an example, and when it prints the help |
| DriverProps | Properties of the main program |
| EachRun | Ranks with programs of their own, in lock-step |
| EachRunProps | Property C102: what the parallel spin models compute |
| ExplicitEnergy | Property C110: the explicit Cahn-Hilliard update loses energy |
| ExplicitEnergyRanks | Property C110 on several ranks |
| Export | The export tools from the file on |
| ExportProps | Property C115: what the export tools show of a run |
| FileHeader | Text header of MMSP files; `grid::input` and `grid::output` as a whole |
| FileHeaderProps | Property C17: the header; C15 for whole files |
| FileIO | Data blocks of MMSP files |
| FileIOMisread | Property C16: a block that compression leaves at its original length is misread |
| FileIOProps | Properties C15, C16: what is written to a file is what is read back |
| Generate | Initial conditions |
| GenerateConvex | Property C106: the initial condition of convex splitting |
| GenerateProps | Property C71: initial conditions |
| GenerateRanks | Initial conditions on several ranks |
| GenerateRanksProps | Property C104: initial conditions on several ranks |
| GenerateStart | Property C105: from `generate` to the last restart |
| Generators | The generators of initial conditions |
| GeneratorsMarch | Property C77: fast marching with a copied loop variable |
| GeneratorsOrder | Property C78: fast marching without undefined behaviour |
| GeneratorsSeeds | Where the seeds come from |
| GeneratorsSeedsProps | Properties C80 and C81: seeds from random numbers, files and honeycombs |
| GeneratorsVoronoi | Properties C77 and C79: the tessellation of `generators.cpp` |
| Ghost | Ghost exchange |
| GhostProps | Properties C09, C10: ghost exchange |
| GhostSched | Property C11: ghost exchange under every schedule |
| Global | Global reduction (C26) |
| GrainSize | Grain sizes |
| GrainSizeProps | Property C40: grain sizes |
| GridCopy | Whole-grid operations: `swap`, `copy`, the copy constructor, same-type assignment and destruction |
| GridCopyProps | Whole-grid operations: theorems |
| Heap | Vectors and sparse cells with their storage |
| HeapNew | Constructing a vector, and elements outside it |
| HeapProps | Container laws of vectors and storage safety (C23, C24, C25) |
| HeapSeq | Operation histories on vectors (C23) and the storage part of `sparse::set` |
| HeisenbergDir | The directions of the Heisenberg example (C127) |
| Ieee | Binary floating-point formats with their smallest and largest numbers |
| IeeeCodec | The bytes of IEEE numbers |
| IeeeConfine | Property C113: the Allen-Cahn example in IEEE numbers never overflows and never leaves its bounds |
| IeeeDense | Property C118: the isotropic grain-growth and Zener-pinning examples in IEEE numbers stay finite and between 0 and 1 |
| IeeeDenseWhole | Property C119: grain growth and Zener pinning in doubles, from `generate` to the last restart |
| IeeeWhole | Property C114: random starts, and Allen-Cahn in doubles from `generate` to the last restart |
| Image | Grey-scale images |
| ImageProps | Grey-scale images (C42) |
| Index | Storage layout and element access of `grid<dim,T>` |
| IndexProps | Properties C03, C04: node numbers, coordinates, storage offsets |
| MTRand | The random number generator |
| MTRandArray | The random number generator: which streams seed arrays reach (C139) |
| MTRandKeys | The random number generator: which seed arrays lead to the same numbers (C140) |
| MTRandPeriod | The random number generator: the numbers repeat (C138) |
| MTRandProps | The random number generator: theorems |
| MTRandRange | The random number generator: ranges, uniformity, non-degeneration, text form |
| MTRandSeed | The random number generator: seeding without a seed, and normal deviates (C137) |
| MixedRadix | Mixed-radix helper lemmas |
| MonteCarlo | Monte Carlo grain growth on sublattices |
| MonteCarloProps | Monte Carlo grain growth: sublattices, state space, energy, termination (C54, C55) |
| MonteCarloRanks | Monte Carlo grain growth on several ranks |
| MonteCarloRanksProps | Monte Carlo grain growth on several ranks is a serial sequence of attempts (C100) |
| MonteCarloRest | Monte Carlo grain growth at the temperature in the file, and where it comes to rest (C123) |
| Multigrid | The multigrid solver for Poisson's equation |
| MultigridConverge | Property C91: the smoother converges, and what to |
| MultigridCycle | The multigrid solver: transfer between levels and whole cycles |
| MultigridDriver | Property C120: what the Poisson example writes when the driver calls it more than once |
| MultigridLine | Property C92: in one dimension the multigrid solver is four sweeps |
| MultigridProps | The multigrid solver: claims |
| MultigridRanks | Property C93: the multigrid solver on several ranks |
| MultigridRun | The multigrid solver: whole runs |
| Noise | Gaussian noise |
| NoiseProps | Property C70: Gaussian noise |
| Options | The command lines of `mmsp2png` and `mmsp2xyz` |
| OptionsProps | Command lines of `mmsp2png` and `mmsp2xyz`: what they mean |
| Ostwald | Ostwald ripening |
| OstwaldProps | Property C68: Ostwald ripening |
| OstwaldWells | The parameters of the Ostwald ripening example |
| Outcome | Outcomes of C++ code |
| Overflow | `int` arithmetic of `setup()` and of element access, with overflow |
| OverflowProps | Property C58: when the index arithmetic fits into `int` |
| ParallelBoard | Convex splitting in an MPI build |
| ParallelBoardLink | Convex splitting in an MPI build and the serial model |
| ParallelBoardProps | Convex splitting in an MPI build: theorems |
| ParallelExamples | The other deterministic examples as parallel programs |
| ParallelExamplesLink | The parallel programs are the programs of the serial models |
| ParallelExamplesProps | The other deterministic examples compute in parallel what they compute serially |
| ParallelOutput | Parallel output, standard path |
| ParallelOutputProps | Property C18: the file written in parallel does not depend on the order of the writes |
| ParallelRun | Update loops, in a serial and in an MPI build |
| ParallelRunProps | A parallel run computes what the serial run computes |
| Points | Property C134: the class `Point` |
| PriorityQueue | The priority queue of the tessellation |
| PriorityQueueProps | What the priority queue guarantees |
| Proc | Processes with blocking sends and receives |
| Progress | The progress bar |
| ProgressProps | The progress bar: how many bullets |
| RandomSeeds | Tessellation with random seeds (C131) |
| RankStreams | The generators of the processes (C137) |
| Relax | Relaxation and diffusion examples |
| RelaxProps | Properties C66, C67: relaxation and diffusion |
| ReportEnergy | The energy that `reportEnergy` computes (C130) |
| Restart | Runs in several calls |
| RoundConfine | Property C111: the Allen-Cahn example in floating point stays bounded |
| RoundConserve | Conservation in floating point |
| RoundConserveRanks | Conservation in floating point on several ranks |
| RoundNearest | Rounding to nearest |
| Rounded | Programs in floating point |
| Rounds | Processes exchanging messages in rounds |
| Sampling | Random walks made by a program and its draws |
| Session | A session: read a file, update, write a file |
| SessionCells | Sessions of the examples whose cells are vectors or sparse vectors |
| SessionMixed | Sessions of the examples with grids of two cell types |
| SessionProps | Sessions on different numbers of ranks continue one run |
| Solid | Solidification |
| SolidProps | Property C69: solidification |
| Sparse | Sparse cells as values |
| SparsePF | Sparse phase fields |
| SparsePFProps | Properties C41, C44, C51: sparse phase fields |
| SparseProps | Sparse cells are finite maps (C20), arithmetic is pointwise (C21), dominant field (C22) |
| SparseRun | Runs of the anisotropic sparse phase-field examples |
| SparseRunProps | Properties C75 and C76: runs of the anisotropic sparse examples |
| SparseStale | Property C41: what `interface_field_evolves` leaves in a cell |
| Spin | Spin models |
| SpinDouble | The Ising and Potts examples in doubles (C124) |
| SpinProps | Spin models: state space, energies, acceptance (C43, C52) |
| SpinSampling | The spin examples sample Gibbs distributions |
| SpinSchedule | The parallel spin models |
| SpinScheduleProps | Property C101: do the parallel spin models return? |
| SpinSerial | Property C103: the parallel Ising model is not a serial one |
| SpinZener | Monte Carlo grain growth with pinning particles (C53) |
| Steady | Where the diffusion programs for beginners end |
| Stencil | Finite-difference stencils |
| StencilExamples | Concrete instances of the stencil theorems |
| StencilField | Finite-difference stencils in exact arithmetic: linearity, exactness, sparse fields |
| StencilProps | Finite-difference stencils: theorems |
| Sublattice | Property C12: sublattice ghost exchange |
| Symmetry | Symmetries of the update programs |
| SymmetryShift | Moving the initial field moves the result |
| SymmetryTurn | Change of sign, exchange of axes and reflection |
| Tessellate | Voronoi tessellation |
| TessellateHang | Fast marching does not end |
| TessellateNever | `approximate_voronoi` does not end |
| TessellateProps | Properties of seed exchange and exact tessellation |
| Tool | The front ends of the export tools |
| ToolProps | Property C60: front ends of the export tools |
| Topology | Grain topology |
| TopologyGrains | Grain topology: vertices, averages, the whole tool and planes |
| TopologyProps | Grain topology (C46) |
| TopologyTable | The table of mmsp2topo |
| TopologyTableProps | The table of mmsp2topo (C86) |
| TopologyTableRun | mmsp2topo from the grid to the table (C86) |
| Tsv | Tables of tab-separated values |
| TsvProps | Property C61: tables of tab-separated values |
| UnequalCalls | Programs whose ranks call `ghostswap` different numbers of times |
| VecMath | Arithmetic of `vector<T>` cells and of whole grids |
| VecMathProps | Property C59: arithmetic of vector cells and of grids |
| Voxel | Voxel files and the old compression tool |
| VoxelProps | Properties C73 and C74: voxel files, and the old compression tool |
| Vtk | VTK images |
| VtkProps | Property C62: VTK images |
| WrongEndian | Changing the byte order of files |
| WrongEndianFile | Property C38: whole files |
| WrongEndianProps | Properties C37 and C38: changing the byte order |
| ZenerEnd | Monte Carlo Zener pinning: particles do not pin for ever (C125) |
| ZenerRanks | Monte Carlo Zener pinning on several ranks (C126) |
