{"id": "C01", "title": "Out-of-range subscripts land inside the domain as the boundary condition says", "statement": "Reading or writing a grid through a coordinate that lies outside the local range of an axis touches the node the boundary condition names: Neumann and Dirichlet give the nearest edge node, serial periodic gives the coordinate congruent modulo the axis length, mirror gives the reflection about the edge node. A coordinate inside the range is never moved. The result is inside the range whenever the overshoot is at most one axis length (periodic) or less than one axis length (mirror); for any overshoot for Neumann/Dirichlet.", "quantifier": "every axis range [x0,x1), every boundary condition on either side, every integer coordinate, serial and MPI builds", "why_tests_cant": "Unit tests probe a handful of offsets by one or two; the claim is about every length, sign of limits and overshoot, including the exact threshold where a single wrap stops being enough.", "anchors": ["include/MMSP.utility.cpp: check_boundary", "include/MMSP.utility.h: target::operator[]"]}
{"id": "C02", "title": "One wrap only: deep out-of-range coordinates escape the allocation", "statement": "The in-range guarantee of C01 is tight: for every axis there are coordinates (more than one length below a periodic axis, more than length-1 above a mirrored one, any outside coordinate of an MPI-interior or MPI-periodic axis) whose mapped coordinate is still outside, so the access is outside the axis (undefined behaviour unless ghosts cover it).", "quantifier": "every axis range, every coordinate beyond the threshold", "why_tests_cant": "An out-of-range read usually returns a neighbouring heap value instead of failing, so a passing test says nothing.", "anchors": ["include/MMSP.utility.cpp: check_boundary"]}
{"id": "C03", "title": "Linear node number and coordinate are inverse bijections", "statement": "For every grid, i -> position(GRID,i) is a bijection from 0..nodes-1 onto the local box [x0,x1) in row-major order, and GRID(position(GRID,i)), GRID[..][..], and GRID(i) name the same storage cell, in serial (no ghosts) and in MPI builds (with ghosts).", "quantifier": "every dimension, every local box with non-empty sides, every ghost width, every node number", "why_tests_cant": "Depends on divisions/moduli of every extent and ghost width; tests use one or two shapes and cannot show there is no collision for other shapes.", "anchors": ["include/MMSP.grid.cpp: grid::position, operator()(int), operator()(vector<int>), operator[], setup"]}
{"id": "C04", "title": "Every in-range access stays inside the allocated array and distinct nodes never alias", "statement": "For coordinates inside the box including ghosts, the computed storage offset is in 0..cells-1, and two different coordinates never share an offset; every offset is some coordinate.", "quantifier": "every dimension, every box, every ghost width, every coordinate", "why_tests_cant": "Memory-safety over all shapes; a test that does not crash does not exclude aliasing.", "anchors": ["include/MMSP.grid.cpp: setup (sx, cells), operator()(vector<int>)", "include/MMSP.utility.h: target"]}
{"id": "C05", "title": "Domain decomposition is a partition", "statement": "For every process count, the local boxes of the ranks are pairwise disjoint, cover the global box exactly, are ordered along each axis by process coordinate, and per axis their widths differ by at most one.", "quantifier": "every dimension, global box and number of processes (any factorisation of the process grid)", "why_tests_cant": "np and extents range over all integers; tests run with 1-4 processes on round sizes.", "anchors": ["include/MMSP.grid.cpp: setup (MPI section, nom/rem)"]}
{"id": "C06", "title": "Process grid uses all processes and minimises the ghost area estimate", "statement": "The chosen number of processes per axis multiplies to np, and among all choices of per-axis factors of np with that product it has the smallest sum of area*(1+factor); ties resolve to the first in enumeration order, and all ranks choose the same process grid.", "quantifier": "every np >= 1, every dimension and every global box", "why_tests_cant": "The search is over all factor tuples of an arbitrary np.", "anchors": ["include/MMSP.grid.cpp: setup (factors, combinations, sp)"]}
{"id": "C07", "title": "Rank and process coordinate are a bijection and neighbours are symmetric", "statement": "Each rank has a distinct process-grid position, every position is taken, and on every axis the upper neighbour of my lower neighbour is me (and vice versa) with wrap-around; the neighbour's box is adjacent to mine (modulo global wrap).", "quantifier": "every np, process grid and rank", "why_tests_cant": "All ranks of all process grids.", "anchors": ["include/MMSP.grid.cpp: setup (pos, n0, n1)"]}
{"id": "C08", "title": "Boundary kind: parallel exactly on internal faces", "statement": "After construction a face of a local box carries the parallel boundary condition iff it is not on the global boundary; faces on the global boundary keep the user-visible (default periodic) condition.", "quantifier": "every np, rank, axis", "why_tests_cant": "All decompositions.", "anchors": ["include/MMSP.grid.cpp: setup (b0,b1)"]}
{"id": "C09", "title": "Ghost exchange fills every ghost cell, including edges and corners, with the owner's value", "statement": "After one ghost exchange in which all ranks take part, every cell of every rank's box including ghosts holds the value the owning rank holds at that coordinate wrapped periodically around the global box; owned cells are unchanged.", "quantifier": "every dimension, process grid, ghost width not larger than any local width, all cell contents", "why_tests_cant": "Corner propagation relies on the order of axes; ranks x dimensions x sizes is unbounded.", "anchors": ["include/MMSP.grid.cpp: grid::ghostswap()"]}
{"id": "C10", "title": "Ghost exchange needs ghosts no wider than the thinnest box", "statement": "If a rank's box is thinner than the ghost width, a ghost exchange delivers stale (not owner) values: there is a concrete decomposition and grid for which a ghost cell differs from the owner's value after the exchange.", "quantifier": "existential: a concrete configuration", "why_tests_cant": "A suite that uses ghosts=1 can never see it.", "anchors": ["include/MMSP.grid.cpp: grid::ghostswap()"]}
{"id": "C11", "title": "Ghost exchange messages match: no truncation, no deadlock", "statement": "In every exchange step of every axis the number of cells a rank sends equals the number its partner expects, each send has exactly one matching receive, and the exchange completes for every interleaving of the ranks when sends are non-blocking as in the code.", "quantifier": "every process grid, every schedule", "why_tests_cant": "Interleavings of np ranks cannot be enumerated by running.", "anchors": ["include/MMSP.grid.cpp: grid::ghostswap()"]}
{"id": "C12", "title": "Sublattice ghost exchange transfers exactly the cells of that sublattice", "statement": "With ghost width 1 (the width the algorithm is written for), the sublattice exchange updates precisely the ghost cells whose coordinates have the sublattice's parities (per the numbering 2D: 0=(even,even),1=(even,odd),2=(odd,even),3=(odd,odd); 3D likewise as 3-bit number) with the owner's values, leaves all other cells unchanged, and its send and receive regions have equal size, provided global extents on wrapped axes are even.", "quantifier": "every sublattice number, every local box in any parity alignment", "why_tests_cant": "Parity alignment of the two sides of every face times 4/8 sublattices times all shapes.", "anchors": ["include/MMSP.grid.cpp: grid::ghostswap(const int sublattice)", "include/MMSP.grid.cpp: *_save"]}
{"id": "C13", "title": "Buffer round trip for cell types", "statement": "For each cell type (primitive/scalar, vector, sparse) unpacking what was packed reproduces the value, consumes exactly the number of bytes the size query announced, and packing writes exactly that number.", "quantifier": "every value: any vector length, any sparse list, any following bytes", "why_tests_cant": "Variable-length encodings; unbounded values.", "anchors": ["include/MMSP.scalar.h", "include/MMSP.vector.cpp: buffer_size,to_buffer,from_buffer", "include/MMSP.sparse.cpp: same", "include/MMSP.utility.h: generic to_buffer"]}
{"id": "C14", "title": "Buffer round trip for grid regions", "statement": "Packing any sub-box of a grid and unpacking it into a congruent sub-box of another grid copies each cell to its image, touches nothing else, and uses exactly the announced number of bytes - even when cells have different encoded lengths.", "quantifier": "every dimension, region, grid content", "why_tests_cant": "Unbounded regions and variable-length cells.", "anchors": ["include/MMSP.grid.cpp: buffer_size, to_buffer, from_buffer"]}
{"id": "C15", "title": "Output then input reproduces the grid", "statement": "Writing a grid to a file and reading the file into a grid of the same type restores every cell, the global limits and the boundary conditions on the global faces - whatever the number of processes that wrote it and the number that read it (any decomposition on either side).", "quantifier": "every dimension, content, writer decomposition, reader decomposition (and compressed size != raw size per block)", "why_tests_cant": "np_write x np_read x sizes; tests use a single process.", "anchors": ["include/MMSP.grid.cpp: output, write_buffer, input, read"]}
{"id": "C16", "title": "Block whose compressed size equals its raw size is misread", "statement": "If compression happens to produce exactly as many bytes as the raw block, reading the file back interprets compressed bytes as cells: the round trip of C15 fails.", "quantifier": "existential: any compressor output of equal length but different content", "why_tests_cant": "Needs a coincidence of sizes that random testing practically never hits.", "anchors": ["include/MMSP.grid.cpp: read, write_buffer"]}
{"id": "C17", "title": "File header is parsed back exactly and mismatching files are rejected", "statement": "The header written by output (type name, dimension, fields, limits, spacings) is read back with equal values (spacing as printed with 6 significant digits) and the reader position afterwards is at the block count, whatever bytes follow. A grid of cells u accepts a file of cells t exactly if u = t or u = scalar:t; any other type ends the program with -2 and another dimension with -3 before any data is read. (So a grid:T file can be read into a grid:scalar:T grid, but not the reverse.) A first line without a colon in its first nine characters ends in an uncaught exception.", "quantifier": "every header content, every cell type name without a colon in its first four characters", "why_tests_cant": "the reader position depends on the bytes that follow the header (a block count of 10 is a newline byte); type names are compared through a substring computed from the last colon within nine characters", "anchors": ["include/MMSP.grid.cpp: input, output", "include/MMSP.*.h: name()"]}
{"id": "C18", "title": "Parallel output: ranks write disjoint, contiguous pieces", "statement": "In parallel output the byte ranges that ranks write are pairwise disjoint, start right after the header, leave no gap, and the resulting file is independent of the order in which writes complete; it equals header, block count, then the blocks in rank order.", "quantifier": "every number of ranks, every block length (including unequal), every completion order", "why_tests_cant": "Interleavings and lengths unbounded.", "anchors": ["include/MMSP.grid.cpp: output (MPI standard path)"]}
{"id": "C19", "title": "The aggregating parallel writer: when it works, and that it then writes the standard file", "statement": "On filesystems with large blocks, output cuts the file into min(ranks, blocks) parts at block multiples. The run finishes without failed assertion, mismatched or missing message, or buffer overrun exactly when every interior cut falls strictly inside the data of a rank other than 0, different cuts in different ranks, and every part is below 2 GiB; the file is then byte for byte the one of the standard path, in whatever order the writes take effect. A file of at most one block is always written. (The unconditional claim is false: a cut at a rank boundary, a cut in rank 0's data, and two cuts in one rank all make it fail.)", "quantifier": "every number of ranks, data sizes, header and filesystem block size; every completion order", "why_tests_cant": "whether it works depends on arithmetic relations between the compressed sizes of all ranks and the block size of the file system of the machine", "anchors": ["include/MMSP.grid.cpp: output (MPI aggregated path, lines 1545-1814)"]}
{"id": "C20", "title": "Sparse cell behaves as a finite map with default zero", "statement": "Any sequence of set/assign/read operations on a sparse cell starting from empty behaves like a map from integer index to value with default 0: reads return the last value set at that index, other indices are unaffected, length is the number of distinct indices ever set, no index appears twice, and item order is first-set order.", "quantifier": "every operation history", "why_tests_cant": "All histories.", "anchors": ["include/MMSP.sparse.cpp: set, operator[], index, value, length"]}
{"id": "C21", "title": "Sparse arithmetic is pointwise", "statement": "+, -, +=, -=, scalar multiplication, max and min of sparse cells agree at every index with the pointwise operation on their map meaning; results contain no duplicate index; == holds iff both list the same indices with equal values in any order.", "quantifier": "every pair of sparse cells", "why_tests_cant": "Unbounded lists with arbitrary overlaps.", "anchors": ["include/MMSP.sparse.cpp: operators, max, min, operator=="]}
{"id": "C22", "title": "Dominant field selection", "statement": "grain_id() returns an index whose value is maximal among stored entries, the earliest stored on ties, and 0 when the cell is empty - provided some stored value exceeds -1; getMagPhi is the square root of the sum of squares of the stored values.", "quantifier": "every sparse cell", "why_tests_cant": "Unbounded lists; the sentinel only matters for values <= -1.", "anchors": ["include/MMSP.sparse.cpp: grain_id, getMagPhi"]}
{"id": "C23", "title": "Vector cell container laws", "statement": "Resizing keeps the common prefix; append adds at the end and keeps everything before; swap exchanges contents; copy and assignment yield an equal vector; equality is element-wise with equal lengths. A new vector is empty and disturbs no other. v[i] is element i; an index at or past the end stops the program at the assertion, for reading and writing; a negative index is undefined behaviour.", "quantifier": "every vector and every sequence of these operations", "why_tests_cant": "All lengths and histories.", "anchors": ["include/MMSP.vector.cpp"]}
{"id": "C24", "title": "Self-assignment and self-copy", "statement": "Assigning or copying a vector or sparse cell to itself should leave it unchanged; in this code it reads released storage (undefined behaviour) for any non-empty cell.", "quantifier": "every cell", "why_tests_cant": "Freed memory often still holds old bytes, so a test may pass by luck.", "anchors": ["include/MMSP.vector.cpp: operator=, copy", "include/MMSP.sparse.cpp: operator=, copy"]}
{"id": "C25", "title": "append never reads outside the source buffer", "statement": "Appending to a vector reads only storage it owns. (The code copies new-size elements from the old-size temporary, so the claim is false for every append of at least one element; the resulting contents are nevertheless right.)", "quantifier": "every vector and appended data", "why_tests_cant": "A heap over-read of one element is invisible without a sanitizer.", "anchors": ["include/MMSP.vector.cpp: append"]}
{"id": "C26", "title": "Global reduction is the same on all ranks and equals the rank-order fold", "statement": "global(value, op) returns on every rank the fold of all ranks' values in rank order with the named operation (add/sum, min/minimum, max/maximum), for every schedule of message deliveries, and always terminates with no message left over; an unknown operation name yields rank 0's value everywhere.", "quantifier": "every np, value vector, operation name and message schedule", "why_tests_cant": "All interleavings.", "anchors": ["include/MMSP.utility.cpp: global"]}
{"id": "C27", "title": "Grid swap and copy", "statement": "swap exchanges two grids completely (doing it twice is the identity); grid copy makes the target hold the source's values in every cell including ghosts and leaves the source unchanged, provided each source cell fits the target cell's buffer; otherwise the copy overflows the temporary buffer.", "quantifier": "every pair of grids and contents", "why_tests_cant": "Cell sizes are unbounded.", "anchors": ["include/MMSP.grid.cpp: swap, copy"]}
{"id": "C28", "title": "Stencils: linearity and exactness", "statement": "laplacian, gradient and divergence are linear in the field, vanish on constant fields, laplacian is exact on quadratics and gradient exact on linear and quadratic functions away from boundaries, for every spacing; the single-field versions agree with the corresponding component of the vector versions.", "quantifier": "every dimension, spacing, field, node", "why_tests_cant": "Infinite families of fields.", "anchors": ["include/MMSP.grid.cpp: laplacian, gradient, divergence"]}
{"id": "C29", "title": "Discrete conservation", "statement": "On a serial grid with periodic or with Neumann boundary conditions, the sum of the laplacian over all nodes is zero (exact arithmetic), so explicit conservative updates such as the Cahn-Hilliard example conserve total mass for any number of steps; mirror boundaries do not conserve.", "quantifier": "every dimension, extents, field values, number of steps", "why_tests_cant": "Unbounded sizes and steps.", "anchors": ["include/MMSP.grid.cpp: laplacian", "include/MMSP.utility.cpp: check_boundary", "examples/phase_transitions/cahn-hilliard/explicit/cahn-hilliard.cpp: update"]}
{"id": "C30", "title": "Main driver: checkpoint names, step accounting and restart", "statement": "(1) The driver calls update with the increment while iterations < steps, starting from the number found in the input file name, and writes one checkpoint per call; if the increment divides steps minus start it advances exactly to steps, otherwise it overshoots to the next multiple; with increment 0 it never ends. (2) The checkpoint name inserts the count, padded with zeros to the number of digits of steps, before the last dot of the output name (or after the name if it has no dot); names of one run have equal length and sort in time order as long as the count has at most as many digits as steps. (3) The argument forms `in steps`, `in steps increment`, `in out steps`, `in out steps increment` are resolved as documented; `in out` without steps is undefined behaviour. (4) Restarting from base.N.suffix (dot-free base and suffix, N with its zeros) continues at N and names the next files like the first run; restarting from a checkpoint without suffix, or from a name with a dot before the number such as ./run.0100.dat, begins numbering at 0 again. (5) generate is called for `--example n` (file `example`) and `--example n name` with n written in digits, and for no other command line; every other use of --example and a call without arguments end with code -1; the help is printed exactly if the first argument is --help.", "quantifier": "every base name, suffix, steps, increment, start, and number of digits", "why_tests_cant": "String arithmetic over all counts of digits and positions of dots; the loop never ending cannot be seen by a finite test.", "anchors": ["include/MMSP.main.hpp: main 38-354"]}
{"id": "C31", "title": "Priority queue pops minima", "statement": "Pushing an element that is not in the queue, popping a non-empty queue, and re-positioning an element that is not on top after its key was changed to anything never fail, keep the heap order, and have exactly the intended effect on the set of stored elements; pop removes an element whose key is minimal; top returns a minimal element; in_heap answers membership.", "quantifier": "every history of such operations from the empty queue, every totally ordered key type", "why_tests_cant": "All histories.", "anchors": ["algorithms/priority_queue.h"]}
{"id": "C32", "title": "Priority queue back-pointers", "statement": "The map from elements to heap positions is right for every stored element except possibly the one on top, so that changing the key of any other element and calling update_position restores the heap. For the element on top it can be wrong after a pop: then update_position reads beyond the end of the heap (undefined behaviour), or, after another push, moves a different element and leaves a queue whose top is not minimal.", "quantifier": "every operation history", "why_tests_cant": "Requires a specific history followed by a change of key of the element on top.", "anchors": ["algorithms/priority_queue.h: pop, update_position, percolate_down"]}
{"id": "C33", "title": "Exact Voronoi assigns every node to a nearest seed", "statement": "With MPI, tessellating with seeds inside the domain gives every node of every rank exactly one phase, the number (in rank order) of a seed at minimal plain squared distance, and among equally near seeds the lowest-numbered one; hence the result at a global coordinate does not depend on how the domain is cut, as long as the concatenated seed list is the same. Distances are never taken through periodic faces, although the code tries to.", "quantifier": "every seed list, every decomposition, every boundary condition, every node", "why_tests_cant": "All seed configurations including ties, and all decompositions.", "anchors": ["algorithms/tessellate.hpp: radiussq 25-29, exact_voronoi 112-157, tessellate 446-498"]}
{"id": "C34", "title": "Fast-marching tessellation: when it ends", "statement": "Propagating the distance from a voxel ends after at most three rounds of each neighbour loop if the voxel is on no upper face (or only on parallel ones), and never ends if it is on the upper face of an axis with any other boundary condition. Consequently the serial tessellation by fast marching never returns for any non-empty seed list on any 2D or 3D grid (on which squared distances stay below INT_MAX).", "quantifier": "every voxel, every state of the distance grid and the queue, every boundary condition, every amount of time; every seed list and grid size", "why_tests_cant": "Non-termination cannot be observed by a test, and the claim is about all grids and seeds.", "anchors": ["algorithms/tessellate.hpp: propagate_distance 161-219, approximate_voronoi 221-444", "include/MMSP.utility.cpp: check_boundary 42-57"]}
{"id": "C35", "title": "Seed exchange reproduces all seeds on every rank", "statement": "Packing a seed list writes three integers per seed and returns that count, unpacking gives the same list; with MPI the exchange gives every rank the seed lists of all ranks in rank order; when seeds come from a file every seed inside the domain is kept by exactly one rank, so that the multiset of exchanged seeds does not depend on the decomposition.", "quantifier": "every seed list per rank, every number of ranks, every decomposition", "why_tests_cant": "All lists, rank counts and offsets.", "anchors": ["algorithms/tessellate.hpp: seeds_to_buffer 32-45, seeds_from_buffer 47-56, tessellate 446-498, seeds_from_file 528-565"]}
{"id": "C36", "title": "Random generator: published sequence, range, uniformity, reproducibility", "statement": "Seeding with a number or with a non-empty array and drawing any number of times yields exactly the MT19937 sequence of Matsumoto and Nishimura for that seed. Every draw is below 2^32; the real-valued variants stay in [0,1], [0,1), (0,1), [0,1). The bounded draw returns the first number acceptable after masking; the result is at most the bound and every result comes from equally many words. Tempering is injective and no seed, numeric or array, makes the generator get stuck at zero. A copy, a saved and loaded state, and a state written to and read from a text stream deliver the same further numbers as the original. Seeding with an array ignores what the generator held before; an empty array is read out of bounds.", "quantifier": "every seed, every seed array, every number of draws before and after, every bound below 2^32, every text following the state in the stream", "why_tests_cant": "2^19937 states; non-degeneration is a claim about arbitrarily late draws.", "anchors": ["algorithms/MersenneTwister.h: 128-136, 167-240, 284-341, 364-411"]}
{"id": "C37", "title": "Endian swap is an involution, the converter is not", "statement": "Swapping an element reverses its bytes, for every element size, and doing it twice is the identity; swapping a buffer acts element by element and twice is the identity. The program as a whole only converts towards this machine: given a non-empty block that already is in native order it reads beyond the end of the file.", "quantifier": "every size and content; every native block of a file shorter than 2^32 bytes", "why_tests_cant": "All byte strings and blocks.", "anchors": ["utility/wrongendian.cpp: 27-53, 246-320"]}
{"id": "C38", "title": "Endian converter turns foreign files into native ones", "statement": "A file of scalar (wider than one byte), vector (fewer than 256 elements per cell) or unpadded sparse (fewer than 256 entries) cells written by a machine of the other byte order, compressed or not, is converted to exactly the file this machine would write for the same grid, with the blocks in the order in which the threads finish. Each restriction is necessary: one-byte scalar grids are refused with exit code -1, long double values come out with their halves exchanged, vectors of 256 elements and padded sparse entries come out wrong.", "quantifier": "every element type of the list but long double, every grid, number of blocks, dimension 1-3, thread order, lawful compressor", "why_tests_cant": "All cells; the failures need cells with at least 256 entries or foreign machines.", "anchors": ["utility/wrongendian.cpp: 69-243, 246-642"]}
{"id": "C39", "title": "Converters between Monte Carlo, phase-field and sparse grids", "statement": "MC2PF gives every node the indicator vector of its id, with as many fields as the largest id requires; MC2sPF gives the single entry (id, 1). PF2MC picks the first index with the largest value; sPF2MC the index of the first largest positive entry, and 0 if none is positive. PF2sPF keeps exactly the fields above the threshold, in order. sPF2PF gives the vector of all values. MC->PF->MC and MC->sparse->MC give every node its id again, sparse->PF->sparse keeps exactly the entries above the threshold, and sparse->PF->MC equals sparse->MC where the largest value is positive and unique (it need not be when it is tied). All programs keep the limits but reset spacing to 1 and boundary conditions to periodic. A negative id makes MC2PF write out of bounds; in three dimensions sPF2PF writes out of bounds as soon as there are two planes.", "quantifier": "every grid, dimension, id assignment and linearly ordered value type", "why_tests_cant": "All id assignments and values.", "anchors": ["utility/MC2PF.cpp: 88-155", "utility/MC2sPF.cpp: 96-139", "utility/PF2MC.cpp: 87-157", "utility/PF2sPF.cpp: 87-136", "utility/sPF2MC.cpp: 87-157", "utility/sPF2PF.cpp: 87-178"]}
{"id": "C40", "title": "Grain size statistics count every node once", "statement": "For grids of ints, of vectors and of sparse cells, grainsize returns a table listing exactly the domains that occur, once each, with the number of nodes in that domain; for int grids the sizes add up to the number of nodes. The domain of a vector is its first largest component, of a sparse cell its first largest positive entry (0 if it has entries but none is positive); nodes with an empty sparse cell are not counted. In parallel, however the messages interleave, every rank ends with the table of the whole grid.", "quantifier": "every grid, dimension, decomposition, ghost width, message schedule", "why_tests_cant": "All grids, all decompositions, all interleavings.", "anchors": ["algorithms/grainsize.hpp: 11-115", "include/MMSP.utility.cpp: 61-136"]}
{"id": "C41", "title": "Interface field evolution keeps values in range and normalised", "statement": "One step of the interface field evolver (algorithms/evolvers.cpp and the anisotropic sparse phase-field example) gives a node whose fields all lie in [0,1] and sum to 1. The computed driving forces and rates are the pairwise (and triple) interaction sums over the fields near the node, the rates sum to zero and so does the unprojected change. (The first sentence is false in general: the destination cell is not cleared, so fields computed two steps earlier remain and the sum exceeds 1. It holds whenever the destination cell is empty, so for the first step.)", "quantifier": "every node state, neighbourhood, interaction coefficients", "why_tests_cant": "Real-valued inputs; the fault appears at the second step.", "anchors": ["algorithms/evolvers.cpp: 16-87", "examples/coarsening/grain_growth/anisotropic/sparsePF/graingrowth.cpp: 87-186"]}
{"id": "C42", "title": "Grey-scale image export", "statement": "mmsp2png writes one byte for every node of the plane shown, in its place (first axis to the right, second upwards, a slice at the chosen level in three dimensions), with a shade between 0 and 255 that grows with the value, 0 at the lower and 255 at the upper end of a range that holds all values. (False with --zoom, whose lower end can come out above the smallest value, so that a number outside 0..255 is converted to a byte, and which divides by zero on a constant field; with a slice level outside the grid, as --slice=X without a level always is, no byte is written; --slice on a plane aborts; sparse --exclude of one field scales squares and draws roots.)", "quantifier": "every grid of one to three dimensions, every field of scalars, vectors or sparse vectors, every option", "why_tests_cant": "All fields, sizes, slices and option combinations; unwritten bytes and out-of-range conversions may look right on the machine at hand.", "anchors": ["include/MMSP.output.cpp: 91-513", "utility/mmsp2png.cpp: 293-309, 752-756"]}
{"id": "C43", "title": "Spin model updates keep the state space", "statement": "Any number of Ising updates keeps every spin at +1 or -1, of Potts updates in 0..19, of Heisenberg updates a unit vector (if the drawn directions are); no run has undefined behaviour; only nodes change; a proposed Ising flip with non-positive energy change is always made.", "quantifier": "every random stream, temperature, number of steps, initial state and periodic grid", "why_tests_cant": "All random streams.", "anchors": ["examples/statistical_mechanics/Ising/ising.cpp: 46-124", "examples/statistical_mechanics/Potts/potts.cpp: 47-125", "examples/statistical_mechanics/Heisenberg/heisenberg.cpp: 62-145"]}
{"id": "C44", "title": "Sparse phase-field update does not resurrect vanished fields", "statement": "After an update step a node lists only fields whose newly computed value exceeds the threshold. (False: values computed two steps earlier survive in the recycled grid; from the second step on, as long as two fields are listed near the node, no field ever leaves the node's cell.) Every run is free of undefined behaviour.", "quantifier": "every grid and step", "why_tests_cant": "Requires a field to vanish and the next-but-one step to be inspected.", "anchors": ["examples/coarsening/grain_growth/isotropic/sparsePF/graingrowth.cpp: 58-120"]}
{"id": "C45", "title": "Anisotropy tables are symmetric, stable functions", "statement": "energy(i,j)=energy(j,i), energy(i,i)=0, and repeated calls return the same value whatever calls happen between; for a symmetric energy function every call returns its value (1 in the file as it stands).", "quantifier": "every call history", "why_tests_cant": "All histories.", "anchors": ["examples/coarsening/grain_growth/anisotropic/sparsePF/anisotropy.hpp: 9-54"]}
{"id": "C46", "title": "Grain topology: edges, faces, vertices, p-vector", "statement": "mmsp2topo on a three-dimensional grid finds as edges of a grain exactly the pairs of other grains that alone touch one of its nodes, as faces the grains on its edges, and one vertex for every three faces meeting pairwise; the p-vector counts, for each p, the faces with p edges, its sum is the number of faces F, the mean is 2E/F, and a grain is Plateaunic exactly if the mean is 6-12/F. The run fails an assertion exactly if some face has a single edge. On a plane the run is undefined exactly if a node touches two other grains of which one has not been met at any node up to it; otherwise edges and vertices are those of the nodes touching one and two other grains. Volumes and first moments are the sums over the nodes. Grain numbers from 65536 on are cut to 16 bits after comparison, so that a grain becomes its own neighbour.", "quantifier": "every serial grid of two or three dimensions whose nodes all have a grain, every field of sparse cells", "why_tests_cant": "All microstructures on all sizes of grid; the combinatorial identities and the exact condition for the failing assertion and the undefined dereference concern every arrangement of grains.", "anchors": ["utility/mmsp2topo.cpp: 31-60, 139-221, 293-305", "algorithms/topology/topology.cpp: 8-203, 248", "algorithms/topology/topology.hpp: 23-120"]}
{"id": "C47", "title": "Same-type grid assignment shares storage", "statement": "Assigning one grid to another of the same type should give two independent grids. In this code the class has only template assignment operators, so the memberwise one is used: a later write through the target changes the source, and destroying both grids frees the same array twice.", "quantifier": "all grids, all cells, all values", "why_tests_cant": "a test sees equal values right after the assignment; the double release shows only at scope exit and only sometimes crashes", "anchors": ["include/MMSP.grid.h: operator= (203, 205)", "include/MMSP.grid.cpp: ~grid"]}
{"id": "C48", "title": "Copy-constructed grid has the source's layout but not its values", "statement": "Constructing a grid from another grid gives the same limits, local box, neighbours, ghost width, fields, boundary conditions and spacings on every rank, does not change the source, and leaves every cell in its default state: the values are not copied.", "quantifier": "all grids laid out by setup, any dimension, any number of processes, any rank, serial or parallel build", "why_tests_cant": "layout equality must hold for every rank count and extent; a test fixes a few", "anchors": ["include/MMSP.grid.cpp: grid(const grid&), setup"]}
{"id": "C49", "title": "divergence of a vector grid", "statement": "divergence(GRID,x) of a grid of vectors with at most dim entries returns dim entries, entry j being the sum over the axes of the central differences of field j (not the divergence of the vector field); with more entries than dimensions it writes outside its result and stops at the bounds assertion.", "quantifier": "all grids, spacings, fields, nodes with their stencil inside the array", "why_tests_cant": "a test with as many fields as dimensions and a radial field sees plausible numbers", "anchors": ["include/MMSP.grid.cpp: divergence (vector version)"]}
{"id": "C50", "title": "A parallel run computes bit for bit what the serial run computes", "statement": "An update function made of loops over nodes, swap and ghostswap, in which every loop reads neighbours only from grids whose ghosts are up to date (within the ghost width) and never reads the grid it writes, gives on every rank of every decomposition the same node values as the serial program, step after step, without out-of-bounds access, whatever the arithmetic is and whatever uninitialised grids contain. The Allen-Cahn and explicit Cahn-Hilliard examples are such programs. Leaving out the ghostswap after the swap breaks the claim.", "quantifier": "all dimensions, decompositions with ghost width not above the local widths, physical boundary conditions on the outer faces, fields, right-hand sides, numbers of steps", "why_tests_cant": "it quantifies over all process counts, grid sizes, boundary conditions and all right-hand sides at once; a test compares a few runs and floating-point noise hides wrong ghosts", "anchors": ["include/MMSP.grid.cpp: ghostswap, operator(), setup", "include/MMSP.utility.cpp: check_boundary", "examples/phase_transitions/allen-cahn/allen-cahn.cpp: update", "examples/phase_transitions/cahn-hilliard/explicit/cahn-hilliard.cpp: update"]}
{"id": "C51", "title": "Zener pinning: particles do not move", "statement": "In the sparse phase-field Zener pinning example the particle field (index 0) keeps its values while the grains evolve. (False: the code tests the node number instead of the field index. At node 0 every field is frozen; at every other node the particle field evolves exactly like a grain.)", "quantifier": "every node and every state", "why_tests_cant": "The update still looks plausible; particles shrink slowly.", "anchors": ["examples/coarsening/zener_pinning/isotropic/sparsePF/zener.cpp: 98-165"]}
{"id": "C52", "title": "Spin models: the computed energy change is the change of the model's energy", "statement": "The dE computed for a proposed flip is the change of the total energy of the Ising, Potts or Heisenberg ferromagnet. (False in general. Potts: true in 3D; in 2D only neighbours along the first axis count, in 1D none, so that every proposal is accepted, because two tests on dim are wrong. Ising: the coupling has the opposite sign, unlike neighbours are rewarded, and the ferromagnetic ground state is left by the first attempt. Heisenberg: opposite sign plus a spurious term, the scalar product of old and new direction.)", "quantifier": "every periodic grid with at least two nodes per axis, every configuration, every proposal", "why_tests_cant": "The simulations run and produce plausible disorder; the statement is about all configurations.", "anchors": ["examples/statistical_mechanics/Ising/ising.cpp: 76-111", "examples/statistical_mechanics/Potts/potts.cpp: 77-112", "examples/statistical_mechanics/Heisenberg/heisenberg.cpp: 97-132"]}
{"id": "C53", "title": "Monte Carlo Zener pinning keeps the particles and creates no grains", "statement": "Whatever is drawn, the Monte Carlo Zener updates have no undefined behaviour, never turn a particle site (spin 0) into a grain or a grain site into a particle, and only ever assign spins that were on the grid; the dE computed is the change of the total (anisotropic) interaction energy, so that without thermal acceptance that energy never increases.", "quantifier": "every random stream, temperature, number of steps, initial state, symmetric energy function with zero diagonal and periodic grid (at least two nodes per axis for the energy)", "why_tests_cant": "All random streams and configurations.", "anchors": ["examples/coarsening/zener_pinning/isotropic/Monte_Carlo/zener.cpp: 89-205", "examples/coarsening/zener_pinning/anisotropic/Monte_Carlo/zener.cpp: 90-210"]}
{"id": "C54", "title": "Monte Carlo grain growth works on independent sublattices", "statement": "The pass over one sublattice has no undefined behaviour, changes only nodes of that sublattice, no two of which are neighbours, and gives each its old spin or one that a neighbouring site of the global domain had before the pass; every node is drawn for exactly the sublattice of its parities; dE is half the change of the number of unlike neighbour pairs of the open box; without thermal acceptance that number never increases; a whole serial run creates no new spins.", "quantifier": "every grid of two or three dimensions (serial, or any rank with at least one layer of ghosts), every position of its corner, every random stream, selection rule and temperature", "why_tests_cant": "A race between ranks or a missed node shows only for particular decompositions and random streams.", "anchors": ["examples/coarsening/grain_growth/isotropic/Monte_Carlo/graingrowth.cpp: 50-372", "examples/coarsening/grain_growth/anisotropic/Monte_Carlo/graingrowth.cpp: 51-376"]}
{"id": "C55", "title": "Monte Carlo grain growth returns", "statement": "update() of a grid with non-empty axes can complete every pass. (False: the number of sites to visit counts sites one past the upper end. If an axis is one layer thick and starts at an even coordinate, a sublattice is left whose sites are counted but do not exist; the loop discards every draw and never ends. With at least two layers along every axis each pass can end, namely as soon as enough of the sites drawn are inside. One-dimensional grids are not updated at all.)", "quantifier": "every grid of one to three dimensions, every random stream", "why_tests_cant": "A hang on thin slabs; and no finite test shows that a loop never ends.", "anchors": ["examples/coarsening/grain_growth/isotropic/Monte_Carlo/graingrowth.cpp: 50-60, 72-107, 187-256"]}
{"id": "C57", "title": "Convex splitting: split, solver, mass and energy", "statement": "In the Cahn-Hilliard example with convex splitting: full_dfdc is the derivative of energy_density and the sum of the contractive and expansive parts, for both energies. A red-black iteration leaves a state exactly if it solves the two implicit equations of the step at every node. The nodes of a colour are independent, so that a pass gives the same whatever the order of the OpenMP threads, if no coordinate is negative and every periodic axis has even length. A step has no undefined behaviour and ends with a state whose residual passed the test, or stops the program; passing means the squared residuals are bounded by the tolerance, and so is the drift of total mass. A solution of the step has exactly the mass of the state before, and no more energy: always for the plain energy, for the parametric one between compositions that are not negative. (On a periodic axis of odd length the threads race; at negative coordinates odd nodes are visited twice; the parametric split is not proper for all compositions; the minima are not at 0 and 1 as the comment says; the last iteration allowed is wasted.)", "quantifier": "every serial grid whose axes are periodic on both sides or closed on both sides, every spacing, every state, every number of steps and iterations; mass and energy over any ordered field", "why_tests_cant": "Energy stability and conservation are inequalities over all states and step sizes; a race between threads depends on the order of execution.", "anchors": ["examples/phase_transitions/cahn-hilliard/convex_splitting/cahn-hilliard.cpp: 34-177, 276-461"]}
{"id": "C56", "title": "Multigrid: smoothing, restriction, prolongation, cycle", "statement": "Of the multigrid solver for Poisson's equation: smoothing at a stride changes only inner nodes of that level, leaves a state exactly if the equation holds at all of them, and never increases the largest error; the defect is what is missing in the equation at each inner node; restriction is full weighting of the old values; linear and cubic interpolation reproduce functions that are linear (cubic) along each axis and leave the coarser level and the boundary alone. If the sides are powers of two times the stride a cycle ends without undefined behaviour, does not depend on uninitialised memory, leaves boundary values, and leaves a solution as it is. On sides of 2^k+1 nodes, k at least 2, update ends with 0 on the boundary. With fewer than five nodes along some axis it never returns; nor does it with at least nine along every axis and along none a power of two plus one, for instance on 10 by 10 nodes. In one dimension restriction and interpolation do nothing.", "quantifier": "every serial grid, every field, right-hand side and stride; the recursion by any amount of fuel", "why_tests_cant": "Fixed points, exactness on all polynomials and non-termination are claims about all fields, sizes and running times.", "anchors": ["examples/differential_equations/elliptic/Poisson/multigrid.hpp: 12-213", "examples/differential_equations/elliptic/Poisson/poisson.cpp: 13-189, 236-248"]}
{"id": "C58", "title": "When the index arithmetic fits into int", "statement": "Strides, node and cell counts of a local grid are computed without signed overflow exactly if its ghost limits and its number of cells are representable. The process grid is found without overflow exactly if the number of processes to the power of the dimension, and the ghost area of every candidate, are representable; then it is the one found with unbounded integers, and so are the limits of the pieces and the ranks of the neighbours. On a grid that could be set up, position(i), GRID(i) and GRID(x) never overflow, for coordinates and limits of at most 2^29 in magnitude, and agree with the unbounded results. (So every run in three dimensions with 1291 processes or more, in two with 46341 or more, has undefined behaviour during construction; a box of 2 by 30000 by 30000 nodes on 3 processes does, and with wrap-around is cut along its 2 nodes; a mirror boundary of a box starting at 2^30 does.)", "quantifier": "every dimension, box, ghost width, number of processes and rank, node and coordinate", "why_tests_cant": "Overflow appears only at process counts and sizes that are too large to test; below them nothing is wrong.", "anchors": ["include/MMSP.grid.cpp: 141-317, 368-411", "include/MMSP.utility.h: 50-59", "include/MMSP.utility.cpp: 42-57"]}
{"id": "C59", "title": "Arithmetic of vector cells and of grids", "statement": "x+y, x-y, min, max and the compound forms on vectors give the componentwise result if y is at least as long as x, and stop the program otherwise; for equal lengths addition commutes and subtraction undoes it. Multiplication by a number multiplies every component by the number converted to the element type. The inner product is symmetric and linear. A+=B and A-=B on grids of one shape combine the values at every coordinate that can be accessed, ghosts included, and undo each other; GRID=value sets every cell of a grid of numbers. (If y is longer its tail is ignored, so that x+y and y+x differ; an int vector times 0.5 is 0; a source grid with fewer cells is read out of bounds; one of another shape with as many cells is combined by storage position; GRID=0 on a grid of vectors empties every cell.)", "quantifier": "every element type with the operations used, every vector and pair of grids, every boundary condition", "why_tests_cant": "Lengths, shapes and values range over infinitely many combinations; a read past the end of an array usually goes unnoticed.", "anchors": ["include/MMSP.vector.h: 29-36, 119-175", "include/MMSP.vector.cpp: 32-36, 54-80", "include/MMSP.grid.cpp: 338-366"]}
{"id": "C60", "title": "Front ends of the export tools", "statement": "Each of mmsp2png, mmsp2tsv, mmsp2xyz, mmsp2vti and mmsp2pvd opens a grid file of every supported type with the element type of the file, or stops with a message; if one other than mmsp2pvd goes on, its grid object has the type in the file. Without output name the output is the input's name with the new extension, different from the input unless the input has that extension; names that differ only in a numeric extension are kept apart by the first three. mmsp2tsv leaves all other files as they were. The collection written by mmsp2pvd lists, numbered from 0, all files if no output is named and all exist, and those behind --output= otherwise. (long double is taken for long: four tools stop, mmsp2pvd reads garbage; mmsp2tsv destroys an input whose name is the output's; with mmsp2vti and mmsp2pvd names with different numeric extensions collide; the order of arguments in mmsp2pvd's usage message gives an empty collection, a file that does not exist is taken for the output, an option alone dereferences the null pointer; of several blocks only the last is kept.)", "quantifier": "every file name, type line, file system content and argument list", "why_tests_cant": "The claims are about all names and argument orders; the failures need unusual but legal ones.", "anchors": ["utility/mmsp2tsv.cpp: 44-566", "utility/mmsp2png.cpp: 218-250, 312-738", "utility/mmsp2xyz.cpp: 140-198, 232-645", "utility/mmsp2vti.cpp: 55-56, 72-83, 108-502", "utility/mmsp2pvd.cpp: 33-154, 189-795"]}
{"id": "C61", "title": "Tables of tab-separated values", "statement": "The output of mmsp2tsv, split at newlines and tabs, is a table with exactly one line per node, in node order: the coordinates of the node followed by its values (the number, the components, or index and value of each entry of a sparse cell). Looking up a node by its coordinates gives the values of GRID at it, if different coordinates are printed differently. (Grids of char print raw bytes, so that the values 9 and 10 break the table; a vector cell with fewer components than the grid has fields stops the program.)", "quantifier": "every serial grid, every printing function that prints no tab or newline, all cell values", "why_tests_cant": "Completeness and order of the table are claims about all shapes, and the breaking values are rare.", "anchors": ["utility/mmsp2tsv.cpp: 574-672"]}
{"id": "C62", "title": "VTK images", "statement": "The image written for a grid has the extent of the grid and one pixel per node, the first axis running fastest; the pixel of a node holds the numbers of the cell of GRID at that node and nothing else, all pixels are written, and components a cell does not have stay uninitialised. The numbers are: the value or its magnitude for scalars; for vectors the magnitude, the number of the first greatest component, the chosen component, or all; for sparse cells the magnitude, the index of the first greatest entry, or the value under the chosen index. (--max is not the field of greatest magnitude, as the comment says; --max stops the program at an empty sparse cell; --field outside the cell stops it or is undefined; a last cell with more components than the grid has fields is written past the end of the image.)", "quantifier": "every serial grid of one to three dimensions with any limits, every cell value and option", "why_tests_cant": "The claim relates every pixel to every node for all extents; an out-of-bounds write or an uninitialised component is not visible in a picture.", "anchors": ["include/MMSP.output.cpp: 517-917"]}
{"id": "C63", "title": "Dense anisotropic grain growth stays on the Gibbs simplex", "statement": "In the anisotropic examples on grids of vectors (grain growth and Zener pinning), if the values of every node start non-negative and add up to 1, then they do so after any number of steps, whatever the time step, spacing, energies and symmetric mobilities, and no access leaves the arrays. The fields considered at a node are exactly those positive there or at a neighbour along an axis; the variational derivatives and rates are the sums over all other such fields (and their pairs), and the rates add up to zero. A node near which at most one field is positive is copied; a field that is zero at a node and not positive at its neighbours stays zero there.", "quantifier": "every serial grid, number of fields, initial values, parameters and number of steps", "why_tests_cant": "The claim is about all initial grids and arbitrarily long runs; the sparse version of the same example loses it only after particular histories.", "anchors": ["examples/coarsening/grain_growth/anisotropic/phase_field/graingrowth.cpp: 94-190", "examples/coarsening/zener_pinning/anisotropic/phase_field/zener.cpp: 105-203"]}
{"id": "C64", "title": "Zener particles do not change (dense examples)", "statement": "In the Zener pinning examples on grids of vectors the particle field 0 keeps its value at every node for any number of steps.", "quantifier": "every serial grid, number of fields, initial values, parameters and number of steps", "why_tests_cant": "Whether particles change depends on the surrounding grains; a test with one grain around every particle never sees it.", "anchors": ["examples/coarsening/zener_pinning/isotropic/phase_field/zener.cpp: 104-142", "examples/coarsening/zener_pinning/anisotropic/phase_field/zener.cpp: 105-203"]}
{"id": "C65", "title": "Dense isotropic grain growth stays bounded", "statement": "In the isotropic examples on grids of vectors, if all fields start in [0,1] and dt(2n+sum of 4/dx^2) is at most 1 (n fields; satisfied by the examples' dt=0.01 and dx=1 in up to three dimensions for up to 44 fields), all fields stay in [0,1] for any number of steps and no access leaves the arrays. The step is an explicit descent step: the change is -dt times the derivative of -sum phi^2/2 - sum phi^4/4 + (sum phi^2)^2/2 plus 2 dt times the Laplacian. The interior of a grain does not change.", "quantifier": "every serial grid, number of fields, spacing, time step within the limit, initial values and number of steps", "why_tests_cant": "A bound for all initial values and unlimited time cannot be sampled; beyond the limit it fails (witness iso_unstable).", "anchors": ["examples/coarsening/grain_growth/isotropic/phase_field/graingrowth.cpp: 73-111", "examples/coarsening/zener_pinning/isotropic/phase_field/zener.cpp: 104-142"]}
{"id": "C66", "title": "Allen-Cahn and model A stay bounded and lose energy", "statement": "In the Allen-Cahn and model A examples, if rR+b <= uR^3 and dt M (K sum 2/dx^2 + 3uR^2 - r) <= 1 (true of the examples' parameters with dx=1: R=1 for Allen-Cahn, whose initial values lie in [-1,1]), then values starting in [-R,R] stay there for any number of steps, for any noise of size at most b, and no access leaves the arrays. Without noise, on closed grids, the discrete free energy never increases from one step to the next; it falls by at least uR^2 times the squared change of the grid, so a step that does not lower it changes no node.", "quantifier": "every serial grid, spacing, parameters within the limit, initial values, noise and number of steps", "why_tests_cant": "Bounds and energy decay for all initial values, all noise and unlimited time cannot be sampled; beyond the limit both fail in one step (witness).", "anchors": ["examples/phase_transitions/allen-cahn/allen-cahn.cpp: 47-75", "examples/phase_transitions/model_A/model_A.cpp: 74-105"]}
{"id": "C67", "title": "The beginners' diffusion programs", "statement": "1stDiffusion keeps its ends at 1 and 0 and a profile falling from 1 to 0 for any number of iterations, spacing and coefficient, and computes exactly the explicit scheme with fixed ends; a profile is stationary exactly when it is linear. MMSPDiffusion prints after n+1 iterations what 1stDiffusion prints after n. Explicit diffusion on any serial grid keeps values between their initial bounds when c sum 2/dx^2 <= 1; MMSPDiffusion2D (c=0.3, dx=1) is beyond this limit and produces negative values from an initial 0/1 grid, and its total never changes although its comment says that values outside the grid are fixed.", "quantifier": "every length >= 2, spacing, coefficient, number of iterations; every serial grid", "why_tests_cant": "The programs print one result for one length; that the printed grid is stale by one iteration and the 2D factor unstable is invisible in a plausible-looking profile.", "anchors": ["examples/beginners_diffusion/1stDiffusion.cpp: 18-45", "examples/beginners_diffusion/MMSPDiffusion.cpp: 13-51", "examples/beginners_diffusion/MMSPDiffusion2D.cpp: 23-66"]}
{"id": "C68", "title": "Ostwald ripening conserves concentration but follows no energy", "statement": "One update step of the Ostwald ripening example on a closed serial grid keeps the sum of the concentration field exactly, for any parameters, fields and number of steps, without leaving any array. The gradient terms of both driving forces are the derivatives of kappa/2 times the sum of squared difference quotients. The order-parameter update lacks the factor eta_i in front of the coupling sum: a field that vanished everywhere is created again at the next step, and the force is not the derivative of any polynomial free energy of the two fields; with the factor it is. With the numbers of the example, the double well of the concentration is stationary at Calpha, Cmatrix and Cbeta and nowhere else, and an order parameter alone in a region of concentration Cbeta comes to rest at the cube root of 2, not at 1.", "quantifier": "every closed serial grid, spacing, parameters, field values, numbers of fields and steps", "why_tests_cant": "The error leaves the conserved total correct and the picture plausible; only the comparison with all energies shows that none fits.", "anchors": ["examples/coarsening/ostwald_ripening/isotropic/phase_field/ostwald.cpp: 56-124"]}
{"id": "C69", "title": "Anisotropic solidification: bounds, heat balance and lost heat", "statement": "In the solidification example the phase fraction stays in [0,1] for any number of steps whenever the flux is mild with factor K and alpha^2 K sum 2/dx^2 <= tau/dt; the flux with the example's six-fold anisotropy of 2% is mild with K=2. Without neighbours a fraction between 0 and 1 grows exactly above the threshold 1/2 + k1/pi atan(k2 u) and shrinks exactly below it; at the melting temperature solid and liquid are treated alike. The loop reducing the time step always ends, with dt at most half of the stability limit. In one call of update the total of u grows exactly by the solid formed in all steps but the last; the heat of the last step of each call is lost because the reference grid is made anew, so splitting a run into several calls (checkpoints) changes the result. Pure phases stay as they are. On a non-periodic lower face the flux divergence is dropped.", "quantifier": "every serial two-dimensional grid, parameters, initial fields and number of steps", "why_tests_cant": "Heat is lost only once per checkpoint interval, a small amount; bounds need all initial fields and unlimited time.", "anchors": ["examples/phase_transitions/solidification/anisotropic/solidification.cpp: 50-167"]}
{"id": "C70", "title": "The noise of models A, B and spinodal", "statement": "gaussian() of the noise examples returns unless the random numbers never hit the unit disk, in which case it never returns; what it returns is a point of the Box-Muller pair, bounded by sqrt(2 log(RAND_MAX^2/2)) (below 9.2 with glibc), so model A started in [-2.5,2.5] stays there with the example's parameters. The test for the centre is never true for odd RAND_MAX. The spinodal example computes the same as model B and conserves the total for every noise.", "quantifier": "every stream of random numbers, every seed state, every number of calls and steps, every closed grid", "why_tests_cant": "The bound of the tail would need about 10^19 samples; non-termination cannot be observed.", "anchors": ["examples/phase_transitions/model_A/model_A.cpp: 13-39", "examples/phase_transitions/model_B/model_B.cpp: 13-39", "examples/phase_transitions/spinodal/spinodal.cpp: 13-39, 72-106"]}
{"id": "C71", "title": "Initial conditions of the examples", "statement": "generate of the dense and sparse grain growth, Zener, Allen-Cahn, Ising, Potts, Ostwald and solidification examples: every node of the grain growth, sparse and Monte Carlo Zener examples gets exactly one field 1 and the others 0 (or the state 0 exactly within one node of a particle, also across periodic borders), whatever the random numbers; together with the update functions the fields stay in their range for any number of steps. The dense Zener examples never write field 2 outside grain and particles: for every stream of random numbers the files of the two- and three-dimensional examples contain uninitialised numbers. In one dimension the second grain covers nodes 17 to 63 of each 64 (missing absolute value), and in the sparse example everything from 17 on (missing remainder).", "quantifier": "every periodic serial grid, every stream of random numbers, every number of steps", "why_tests_cant": "Memory that is not initialised is mostly zero in fresh processes, so a test sees the intended value; all random placements cannot be tried.", "anchors": ["examples/coarsening/grain_growth/isotropic/phase_field/graingrowth.cpp: 13-71", "examples/coarsening/grain_growth/anisotropic/phase_field/graingrowth.cpp: 14-92", "examples/coarsening/grain_growth/isotropic/sparsePF/graingrowth.cpp: 13-60", "examples/coarsening/zener_pinning/isotropic/phase_field/zener.cpp: 13-102", "examples/coarsening/zener_pinning/anisotropic/phase_field/zener.cpp: 14-103", "examples/coarsening/zener_pinning/isotropic/sparsePF/zener.cpp: 13-98", "examples/coarsening/zener_pinning/isotropic/Monte_Carlo/zener.cpp: 13-84"]}
{"id": "C72", "title": "Restarting on any numbers of processors continues one serial run", "statement": "A run divided into any number of sessions, each reading the file of the one before, updating and writing a new file, each serial or with MPI on its own number of ranks and its own ghost width, succeeds, and the last file holds node for node the field that one serial run of all the updates computes, with the same limits, spacings and faces. This holds for every update function made of ghost exchanges and stencil sweeps that reads no further than the exchanged width, for every order in which the bytes of MPI writes take effect, compressed or not. For Allen-Cahn with k1 steps on n1 ranks, k2 on n2 ranks and so on, the result is that of k1+k2+... serial steps. Every file that output writes denotes the field that was written, and the grid each rank reads is its block of the decomposition.", "quantifier": "every list of sessions, numbers of ranks, ghost widths, dimension, grid limits, spacings, faces, cell type with inverse pack and unpack, update program", "why_tests_cant": "Combines all decompositions, write orders and file contents over unlimited restarts; a test compares a few runs.", "anchors": ["include/MMSP.grid.cpp: 132-139, 1183-1246, 1360-1401, 1426-1543", "include/MMSP.main.hpp: 300-324"]}
{"id": "C73", "title": "Voxel files: grid to text and back, short files, and files destroyed by their own converter", "statement": "MC2vox on a three-dimensional grid of int, written by any number of processes, followed by vox2MC gives a grid file with the same value at every node, moved to the origin, with spacing 1 and periodic faces; the text states the number of distinct values. A voxel text with fewer values than nodes is accepted without error, and the remaining nodes hold whatever was in memory. When the output name equals the input name - the default for an input called *.PF - MC2vox empties its input and aborts. Grids of unsigned int, scalar:int and short int pass the type tests and then end with -2, leaving an emptied output file.", "quantifier": "every limits, values, number of writing processes, compression, file names, contents of uninitialised memory", "why_tests_cant": "The default extension destroys only files called .PF; missing values are usually zero in a fresh process; node order must hold for every shape.", "anchors": ["utility/MC2vox.cpp: 23-121", "utility/vox2MC.cpp: 22-54"]}
{"id": "C74", "title": "The stand-alone compressor cannot read the library's files", "statement": "mmsp2z compresses files whose blocks are limits, size and data: the text is copied, and each block of at least eight bytes becomes limits, size, compressed size and bytes from which zlib recovers the data; a block below eight bytes ends the program with a failed assertion. No file written by output (up to 4 GiB, at least one block) can be compressed: the tool reads the boundary conditions of the first axis as the size of the block, which ends in the failed assertion if the upper face of axis 0 is mirror and in reading past the end of the file for every other condition.", "quantifier": "every file of output for every cell type, dimension 1 to 3, limits, boundary conditions, number of blocks, compression", "why_tests_cant": "The old layout has no writer any more; only all boundary conditions together show that there is no file it works on.", "anchors": ["utility/mmsp2z.cpp: 55-171"]}
{"id": "C75", "title": "Runs of the anisotropic sparse grain growth and Zener examples", "statement": "Any number of steps of the anisotropic sparse phase-field examples on one process ends without failure. Whatever the data written to the second grid in earlier steps, every cell lists only fields that occurred in the initial data, each once, with a positive value, and the values add up to at least 1. In each step the values of the fields found at the node and its neighbours add up to exactly 1, so anything above 1 belongs to fields that are no longer near the node.", "quantifier": "every dimension, limits, boundary conditions within reach, spacing, time step, energies, symmetric mobilities, interface parameters, initial data with sums of at least 1, number of steps", "why_tests_cant": "The two grids are swapped without being cleared, so old fields return after two steps; the bounds must hold for every history.", "anchors": ["examples/coarsening/grain_growth/anisotropic/sparsePF/graingrowth.cpp: 87-186", "examples/coarsening/zener_pinning/anisotropic/sparsePF/zener.cpp: 99-200"]}
{"id": "C76", "title": "Particles of the anisotropic sparse Zener example stay as they are", "statement": "The particles (field 0) of the anisotropic sparse Zener example do not move: a step leaves the value of field 0 at every node unchanged.", "quantifier": "every node, cell contents, forces, symmetric mobilities, time step", "why_tests_cant": "Field 0 has rate zero, so the error appears only through the normalisation at nodes where another field is cut off at zero.", "anchors": ["examples/coarsening/zener_pinning/anisotropic/sparsePF/zener.cpp: 160-195"]}
{"id": "C77", "title": "The fast-marching tessellation of generators.cpp gives every node a seed nearest in the sum of the coordinate differences", "statement": "approximate_voronoi of algorithms/generators.cpp, on one process, ends. If it returns, every node carries, in addition to what was in its cell before, the value 1 for a seed whose taxicab distance (sum of absolute coordinate differences, without periodic images) to the node is smallest. This is in general neither a Euclidean Voronoi diagram nor a periodic one, although the grid is periodic: there are seeds and nodes for which the nearest seed in these senses is another one.", "quantifier": "every 2D or 3D grid whose side lengths add up to less than 2^31, nonempty list of seeds inside, cell contents", "why_tests_cant": "Wrapped and diagonal steps are offered to the marching front as well; that they never win is a statement about all paths through all grids.", "anchors": ["algorithms/generators.cpp: 127-184", "algorithms/generators.cpp: 186-408"]}
{"id": "C78", "title": "The fast-marching tessellation of generators.cpp does not misuse its priority queue on grids with two proper axes", "statement": "If at least two axes have two nodes or more, and no two different seeds are neighbours of each other (diagonally or across a periodic boundary included), approximate_voronoi of algorithms/generators.cpp returns: it never reads a stale position from its priority queue, never leaves the arrays and never overflows an int. On a 3 x 1 grid with a seed at the end it does read a stale position.", "quantifier": "every 2D or 3D grid whose side lengths satisfy sum(L-1) + sum((L-1)^2) < 2^31, every such nonempty list of seeds", "why_tests_cant": "The queue keeps indices of popped entries; whether a popped node can be updated again depends on the order in which all distances of all grids are met.", "anchors": ["algorithms/generators.cpp: 127-184", "algorithms/generators.cpp: 219-235", "algorithms/priority_queue.h: 16-120"]}
{"id": "C79", "title": "seedswap of generators.cpp lists a rank's own seeds twice, so grain numbers differ between ranks", "statement": "After seedswap of algorithms/generators.cpp, rank r has in entry i the seeds of rank i, except that entry r holds its own seeds twice. With MPI, tessellate therefore numbers a seed of rank i by its position in that doubled list: the seeds of ranks above r get numbers on rank r that are larger by the number of r's seeds than on other ranks. A node and its neighbour on another rank that both belong to the same seed can carry different grain numbers.", "quantifier": "every number of ranks, seeds of the ranks, decomposition and node for the numbering; a concrete two-rank run for the split grain", "why_tests_cant": "A serial test has no exchange, and every rank by itself looks consistent.", "anchors": ["algorithms/generators.cpp: 410-448", "algorithms/generators.cpp: 576-601", "algorithms/generators.cpp: 81-125"]}
{"id": "C80", "title": "Seeds from random numbers and files", "statement": "Random seeds are as many as asked for and lie inside the whole grid, so the serial tessellation of random seeds never fails its assertion. seeds_from_file of generators.cpp turns each row of a file into the node floor-scaled by (length - 1), keeps those of its own part, and adds one seed too many, made of the last number alone, if white space follows the last number; a file with no rows reads an uninitialised number. Since seeds_to_file divides by the length and always ends in white space, a list of seeds written and read back comes out with every coordinate above the lower face one smaller and one seed longer. seeds_from_file of tessellate.hpp makes one seed per line, repeats the last number of a short line, and reads an uninitialised number on a blank line; the number x gives coordinate k exactly for k/L <= x < (k+1)/L.", "quantifier": "every dimension 1 to 3, grid limits (for the round trip: not negative, lengths up to 1000), rows or lines of numbers within range, list of seeds, generator with values in range", "why_tests_cant": "The readers look right on a single sample file without trailing newline; the shift and the additional seed are statements about all files.", "anchors": ["algorithms/generators.cpp: 450-545", "algorithms/tessellate.hpp: 500-564"]}
{"id": "C81", "title": "Honeycomb seeds", "statement": "On a grid from 0 on one process, honeycomb_seeds with spacing a >= 2 makes exactly the nodes (i a + o_j, j a) of the grid, where o_j is 0 and a/2 in turn (a row with a/2 comes first exactly for odd a other than 3). Spacings below 2 divide by zero; in other dimensions the program stops. In parallel, a process whose part begins at multiples of an even spacing makes all seeds of the whole grid below its upper corner again, also those of other processes; a process whose part begins at a row that is not a multiple of the spacing makes no seed of the honeycomb of the whole grid at all.", "quantifier": "every spacing, grid limits, part of the grid beginning at nonnegative coordinates", "why_tests_cant": "Serial runs are right; whether parallel parts fit together depends on the decomposition.", "anchors": ["algorithms/generators.cpp: 547-574"]}
{"id": "C82", "title": "Converters from file to file", "statement": "Each of MC2PF, MC2sPF, PF2MC, PF2sPF, sPF2MC and (in one and two dimensions) sPF2PF, run on a file that any program wrote on any number of processes, succeeds and writes a file that again any program can read, which holds node by node the converted values (C39), with spacing 1 and periodic faces whatever the input had. MC2PF followed by PF2MC, and MC2sPF followed by sPF2MC, give a file with the ids of the first. No program changes any file unless it succeeds, and then only its output. A negative id makes MC2PF, and three dimensions sPF2PF, run into undefined behaviour. The tests of the type line also accept unsigned int, short int, scalar<int> and long double, for which the programs stop with -2 when the grid is read; other type lines are refused with -1, and a file that ends after the type line makes them use an uninitialised dimension.", "quantifier": "every input file written by any run (any number of ranks, any decomposition, boundary conditions, spacing), every name, every grid of 1 to 3 dimensions", "why_tests_cant": "Whether a chain of two programs keeps every id depends on file format, decomposition and data together.", "anchors": ["utility/MC2PF.cpp: 1-155", "utility/MC2sPF.cpp: 1-139", "utility/PF2MC.cpp: 1-157", "utility/PF2sPF.cpp: 1-136", "utility/sPF2MC.cpp: 1-157", "utility/sPF2PF.cpp: 1-178"]}
{"id": "C83", "title": "Command lines of mmsp2png and mmsp2xyz", "statement": "Options typed as the usage messages describe mean what these say: the mode, the collected sets of fields and levels, the last of every other option, and the numbers of the data and output arguments; the program goes on exactly if a data file is named. This holds for values of at most 255 characters and for tolerances that do not depend on their first character. Outside this range: --contol drops the first character of its value (so a decimal number is read correctly exactly if it begins with 0), is undefined for one character and throws for none; --contour= without a field and --zoom= with one number are undefined; lists of fields are cut at 255 characters, so a long list selects a field nobody named; a misspelt option is taken for the data file.", "quantifier": "every list of arguments of the described forms, every number of options, every conversion function atof", "why_tests_cant": "The space of command lines is unbounded; the failures need particular lengths or first characters.", "anchors": ["utility/mmsp2png.cpp: 16-212", "utility/mmsp2xyz.cpp: 28-140"]}
{"id": "C84", "title": "Point clouds of mmsp2xyz", "statement": "The rows of the point cloud are, in the order of the nodes, exactly the places of the nodes whose value is nearer to some non-zero level than the tolerance times that level, for scalar grids (with --mag of the absolute value), and of the contour field of vector and sparse grids; with --normal a scalar row ends in the central differences at the node. No place is written twice, and the choice does not depend on the unit of the field. Without --contour nothing is written, level 0 selects nothing, --field, --exclude, --mag and --normal have no effect on vector grids, a contour field the grid does not have ends in an assertion or undefined behaviour, and with normals the header names five columns where rows have six.", "quantifier": "every grid shape, data, spacing, list of levels, tolerance and option", "why_tests_cant": "Ranges over all data and levels.", "anchors": ["utility/mmsp2xyz.cpp: 199-203", "utility/mmsp2xyz.cpp: 652-959"]}
{"id": "C85", "title": "Progress bar", "statement": "A run of at least two steps prints an opening, then bullets, then the closing with elapsed time; the number of bullets is the greatest common divisor of 20 and the number of steps, or one less than the number of steps if that divides 20. So the bar has its 20 points exactly if the number of steps is a multiple of 20 other than 20. A run of one step never closes its bar; from 107374185 steps on a product overflows. The elapsed hours, minutes and seconds add up to the elapsed time.", "quantifier": "every number of steps, every elapsed time", "why_tests_cant": "The count depends on the arithmetic of the number of steps; the overflow needs a run of more than 10^8 steps.", "anchors": ["include/MMSP.utility.cpp: 138-179"]}
{"id": "C86", "title": "Table of mmsp2topo", "statement": "In three dimensions, for grids without a face of a single edge (C46): every row of the table has as many columns as the first line, the rows are in the order of grain numbers, volume and centre are the sums of the field and of its first moment, the first part has exactly the grains of volume at least 1 with at least two corners, the second part exactly the smaller ones with an edge; all other grains are missing, and a grain of volume zero with an edge makes the program undefined. On a plane the first line has ten columns, but a row of the first part has a further one for every neighbour, in ascending order, and a row of the second part lacks the third coordinate, so its volume stands in the column for z; a grain of volume zero makes the program undefined. The average volume is that of the grains of volume at least 1. The lower end of the span of the phase printed is right; its upper end stays 0 for a phase that decreases from node to node. A file is read exactly if its type line has grid, sparse and float in columns 0, 5 and 12; a line ending where one of the latter words would be separated ends in an exception.", "quantifier": "every grid shape, every assignment of sparse vectors to nodes, every spacing, every type line", "why_tests_cant": "Which grains are missing, and how many columns a row has, depends on arbitrary configurations of grains.", "anchors": ["utility/mmsp2topo.cpp: 84-113", "utility/mmsp2topo.cpp: 141-145", "utility/mmsp2topo.cpp: 228-392", "algorithms/topology/topology.cpp: 205-264"]}
{"id": "C87", "title": "Grain growth, ripening and solidification in parallel", "statement": "On every number of ranks and after every number of steps, update of the grain growth examples (dense and sparse, isotropic and anisotropic), of the dense and of the anisotropic sparse Zener example, of Ostwald ripening and of the solidification example leaves on every node, bit for bit, what the serial build leaves there, whatever the ghosts and scratch grids contained before, and neither build reads or writes outside its arrays; with exact arithmetic these are the values of the serial models of C44, C63 to C65, C68, C69 and C75. The isotropic sparse Zener example is different: it keeps node 0 of every rank fixed, so its result depends on the number of ranks.", "quantifier": "every decomposition whose boxes are at least as wide as the ghosts, at least one ghost layer, every boundary condition, every right-hand side, every number of fields and of steps, all contents", "why_tests_cant": "Quantifies over all decompositions and contents; a test compares two runs, and a difference that depends on which node a process numbers 0 stays unnoticed where that node lies inside a grain.", "anchors": ["examples/coarsening/grain_growth/isotropic/phase_field/graingrowth.cpp: 73-111", "examples/coarsening/grain_growth/anisotropic/phase_field/graingrowth.cpp: 94-190", "examples/coarsening/grain_growth/isotropic/sparsePF/graingrowth.cpp: 58-120", "examples/coarsening/grain_growth/anisotropic/sparsePF/graingrowth.cpp: update", "examples/coarsening/zener_pinning/isotropic/sparsePF/zener.cpp: 148-158", "examples/coarsening/ostwald_ripening/isotropic/phase_field/ostwald.cpp: 70-125", "examples/phase_transitions/solidification/anisotropic/solidification.cpp: 75-160"]}
{"id": "C88", "title": "The result does not depend on how steps are divided into calls", "statement": "For Allen-Cahn, explicit Cahn-Hilliard, dense grain growth and Zener pinning (isotropic and anisotropic) and Ostwald ripening: two sequences of calls of update with the same total number of steps, starting from the same field on the nodes, end with the same field, bit for bit, whatever division into calls, whichever calls are made by a serial build and whichever on any number of ranks with any ghost width, and whatever the scratch grids and ghosts contain when a call begins; no such call fails. The sparse phase field example is different: two steps in one call and in two calls give different cells, because newGrid is empty at the start of every call and holds the fields of two steps before within a call (solidification differs too, C69).", "quantifier": "every global grid and boundary condition, every two lists of step counts with equal sum, every decomposition for every call, every right-hand side, all contents of scratch grids and ghosts", "why_tests_cant": "A test compares a few divisions; dependence on scratch contents or on a value below the cut-off shows only for particular contents.", "anchors": ["include/MMSP.main.hpp: 275-346", "examples/phase_transitions/allen-cahn/allen-cahn.cpp: update", "examples/phase_transitions/cahn-hilliard/explicit/cahn-hilliard.cpp: update", "examples/coarsening/grain_growth/isotropic/phase_field/graingrowth.cpp: update", "examples/coarsening/grain_growth/anisotropic/phase_field/graingrowth.cpp: update", "examples/coarsening/ostwald_ripening/isotropic/phase_field/ostwald.cpp: update", "examples/coarsening/grain_growth/isotropic/sparsePF/graingrowth.cpp: 58-120"]}
{"id": "C89", "title": "Convex splitting on ranks computes what it computes serially", "statement": "update of the convex splitting Cahn-Hilliard example, started on any number of ranks from the field that a serial build is started from (ghosts may hold anything), does exactly what the serial build does: either both finish all steps, with the same composition and potential on every node, or both are stopped with code -1 because the solver has used up max_iter in the same step. In particular the solver makes the same number of iterations everywhere. This needs a grid that can be coloured like a chess board (no negative coordinate, periodic axes of even length) and one ghost layer; with three nodes in a ring, or with a node at -1, one iteration already gives a different field.", "quantifier": "every global grid that can be coloured, every boundary condition (periodic, Neumann, Dirichlet), every decomposition, all parameters, every time step, every iteration limit, every number of steps, every field", "why_tests_cant": "Parallel Gauss-Seidel runs agree on the grids that are tried; a node that reads a neighbour of its own colour across a rank boundary, or a residual that differs between ranks, shows only for some decompositions.", "anchors": ["examples/phase_transitions/cahn-hilliard/convex_splitting/cahn-hilliard.cpp: 138-177, 276-461", "include/MMSP.grid.cpp: ghostswap"]}
{"id": "C90", "title": "Whole parallel runs end, and end as the serial run, whatever the speed of ranks and messages", "statement": "Let every rank execute a program of node loops, swaps and ghostswaps at its own speed, waiting only for messages and barriers, with messages that may overtake each other and sends that complete early or only when the message was taken. Then no run is longer than np*(16*dim*G + L) steps (L statements, G of them ghostswap), no run stops before all ranks have executed all statements, and all runs end with the same fields, those of lock-step execution, with no message left. So the Allen-Cahn, Cahn-Hilliard, grain growth, Zener pinning, ripening and solidification examples end in every such run with the fields of the serial program.", "quantifier": "every interleaving of ranks and messages, every global grid and decomposition, every boundary condition, every program of these statements, every number of steps, every field", "why_tests_cant": "A test sees the schedules of one machine. A message of one ghostswap taken by the next, or a rank that overtakes another between two calls, happens only under some schedules.", "anchors": ["include/MMSP.grid.cpp: ghostswap 413-515", "examples/: update of allen-cahn, cahn-hilliard, grain growth, zener, ostwald ripening, solidification"]}
{"id": "C91", "title": "Poisson's equation of a level has one solution and the smoother converges to it", "statement": "On every level of every serial grid, for every right-hand side and all boundary values, the discrete Poisson equation has exactly one solution. smooth converges to the one with the boundary values it is given, from any start: after n iterations the error is at most M*N^2/4*(1-rate)^n, M the largest error at the start, N the number of strides along any chosen axis, rate = 4/(N^2*sum of squared ratios of the spacings), for equal spacings 4/(dim*N^2). On the coarsest level of a cycle 40 iterations leave at most (1-1/dim)^40 of the error.", "quantifier": "every serial grid, stride dividing the sides, spacing, right-hand side, boundary and starting values, every number of iterations, every ordered field", "why_tests_cant": "A test runs finitely many iterations from finitely many fields; convergence is a claim about all of them.", "anchors": ["examples/differential_equations/elliptic/Poisson/poisson.cpp: smooth 13-99", "examples/differential_equations/elliptic/Poisson/multigrid.hpp: MG 162-167"]}
{"id": "C92", "title": "In one dimension multigrid is four sweeps", "statement": "For grid<1,T> restriction and interpolation do nothing, so a multigrid cycle at stride 1 (any gamma, nu1, at least one post-smoothing) has the result of its nu1+nu2 sweeps alone. On 2^k+1 nodes, k at least 3, update computes four sweeps of red-black Gauss-Seidel from 0: the right-hand side more than seven nodes away has no influence, the result is at most 4*dx^2*max|f|, and for a right-hand side between m > 0 and F the true solution at the middle is at least m*N^2/(32F) times as large (on the 2049 nodes that generate writes, more than 43000 times). From 17 nodes on there are right-hand sides for which the result is not the solution.", "quantifier": "every one-dimensional serial grid with 2^k+1 nodes, every spacing and right-hand side, every content of uninitialised memory", "why_tests_cant": "That no influence reaches further than seven nodes is a claim about all right-hand sides and all sizes; a small test grid (5 nodes) is solved correctly.", "anchors": ["examples/differential_equations/elliptic/Poisson/multigrid.hpp: 12-15, 56-59, 155-212", "examples/differential_equations/elliptic/Poisson/poisson.cpp: 13-33, 191-204, 236-248"]}
{"id": "C93", "title": "Multigrid on several ranks reads outside the memory of the upper ranks", "statement": "With MPI, on a rank whose memory begins above the origin of the first axis, update of the Poisson example has undefined behaviour in its first sweep, for every content of the grid: the loops start at the stride counted from the origin of the whole grid. If an axis has fewer than five nodes below the rank's upper limit it loops forever instead. In particular a one-dimensional grid of at least five nodes on two or more ranks, at least two nodes per rank: the last rank.", "quantifier": "every local part of every decomposed grid starting at 0 that begins above the ghost width along axis 0, every field, spacing, whatever the finer levels do", "why_tests_cant": "Reads below an array usually return something; only a rank of a parallel run is affected, and the serial tests of the example are fine.", "anchors": ["examples/differential_equations/elliptic/Poisson/poisson.cpp: 13-99, 236-248", "examples/differential_equations/elliptic/Poisson/multigrid.hpp: 197-212", "include/MMSP.utility.cpp: check_boundary 42-57", "include/MMSP.grid.cpp: setup 141-317"]}
{"id": "C94", "title": "The Ising and Potts examples sample the Gibbs distribution of their energies", "statement": "With rand() uniform on 0..RAND_MAX and independent, an attempted Ising flip satisfies detailed balance with weights exp(-E/kT), and n attempted flips change that distribution by at most 2n/(RAND_MAX+1) in total over all configurations. From any initial configuration the distribution after n attempts differs from it by at most 2*rho^(n div K)+2n/(RAND_MAX+1) with rho<1. The same for Potts with the weights multiplied by the probabilities of rand()%20, which for RAND_MAX=2^31-1 prefer spins 0..7 by 2^-31. E is the energy the examples use (C52): Ising with coupling of the wrong sign, Potts over all neighbours in 3D, those along the first axis in 2D, none in 1D. Heisenberg has no such distribution: its energy changes are not those of any energy.", "quantifier": "every serial periodic grid of any dimension with at least two nodes along every axis and at most RAND_MAX+1 nodes, every temperature, initial configuration and number of attempts, every RAND_MAX >= 1 (Potts: >= 19)", "why_tests_cant": "Detailed balance is a statement about all pairs of the 2^N configurations, and a bias of the acceptance or of the proposals can be far below what a sampled histogram resolves.", "anchors": ["examples/statistical_mechanics/Ising/ising.cpp: update 46-124", "examples/statistical_mechanics/Potts/potts.cpp: update 47-125", "examples/statistical_mechanics/Heisenberg/heisenberg.cpp: update 62-145"]}
{"id": "C95", "title": "Rounding keeps phase fields, diffusion, random numbers and grey levels in their ranges", "statement": "With every + - * / rounded to nearest, ties to even, to p binary digits (u=2^-p): (1) In the dense multi-order-parameter examples all fields are in [0,1] exactly after any number of steps, whatever is lost in computing the rates; a node that is recomputed is zero in all fields or sums to 1 between (1-u)^2/(1+u)^n and (1+u)^2/(1-u)^n for n fields. (2) 1stDiffusion keeps its ends, stays in [0,1] exactly, and after n iterations differs from exact arithmetic by at most 3nu at every node. (3) In doubles MTRand::rand() is in [0,1] with both ends attained, randExc, randDblExc and rand53 are computed without error, rand(n) is in [0,n], randExc(n) in [0,n), randDblExc(n) in (0,n). (4) The grey level of mmsp2png is in 0..255 with 0 at the minimum, 255 at the maximum, and does not decrease with the value.", "quantifier": "every precision p >= 2 (grey levels: >= 8; random numbers: doubles), every grid, number of fields, steps and iterations, all rates and initial values in range, every 32-bit output of the generator and every bound, every non-empty range", "why_tests_cant": "One double in 2^53 can be the one that rounds above 1 or past 255; results outside the range would show up only in rare combinations of values and after many steps.", "anchors": ["examples/coarsening/grain_growth/anisotropic/phase_field/graingrowth.cpp: update 107-187", "examples/coarsening/zener_pinning/anisotropic/phase_field/zener.cpp: update 118-200", "examples/beginners_diffusion/1stDiffusion.cpp: main 10-39", "algorithms/MersenneTwister.h: rand, randExc, randDblExc, rand53 319-341", "include/MMSP.output.cpp: scalar_field_to_png 126, 142, 160"]}
{"id": "C96", "title": "The beginners' diffusion programs end at the straight line; the 2D one diverges", "statement": "With N = nodes-1: after n iterations the profile printed by 1stDiffusion is within cos(pi/2N)^(2n) sin(pi x/N)/2 of the straight line 1-x/N at node x; with every operation rounded to p binary digits at most 6 x (N-x) 2^-p is added, however many iterations are made. As written (10 nodes, 1000 iterations, doubles) it prints the line within 1e-13. MMSPDiffusion has the same bound one iteration later. MMSPDiffusion2D on m x m nodes, m >= 4, holds after k iterations a value of magnitude at least (1/5+6/5 cos(pi/m))^k/(4m^2), where the base exceeds 1: beyond every bound its values are exceeded from some iteration on at every later iteration.", "quantifier": "every number of nodes, iterations, spacing and diffusion coefficient; every precision >= 2 digits; for the 2D program every side from 4 on and every bound", "why_tests_cant": "Convergence and divergence are statements about all iteration counts; with few iterations or short sides the growth of the 2D program is below the printed digits.", "anchors": ["examples/beginners_diffusion/1stDiffusion.cpp: main 10-39", "examples/beginners_diffusion/MMSPDiffusion.cpp: main 9-60", "examples/beginners_diffusion/MMSPDiffusion2D.cpp: main 9-68"]}
{"id": "C97", "title": "Phase-field runs restarted from files on any numbers of ranks", "statement": "(1) Any update function that exchanges ghosts and repeats a time loop of sweeps, swaps and ghost exchanges, on cells of bounded size without compression: k1 steps on n1 ranks, continued from the file for k2 steps on n2 ranks (or serially) and so on, succeed, and whoever reads the last file obtains node for node the field of k1+k2+... serial steps. (2) This applies to the isotropic and anisotropic dense phase-field examples of grain growth and Zener pinning, whose cells are vectors with as many entries as the file says. (3) For the sparse phase-field examples the same holds with the serial run making the same calls of update (the division into calls matters, C88).", "quantifier": "every number of sessions, ranks, steps, ghost width >= 1, every right-hand side, every order of the bytes of MPI writes, every content of uninitialised memory of the right type, grids whose blocks fit into an int", "why_tests_cant": "Numbers of sessions, ranks and steps are unbounded; differences in ghosts, vector lengths or restored entries show up only for particular decompositions.", "anchors": ["include/MMSP.main.hpp: 275-346", "include/MMSP.grid.cpp: input 1183-1246, read 1247-1357, output 1360-1543", "include/MMSP.vector.cpp: 92-117", "include/MMSP.sparse.cpp: 139-161", "examples/coarsening/grain_growth/isotropic/phase_field/graingrowth.cpp: update", "examples/coarsening/grain_growth/anisotropic/sparsePF/graingrowth.cpp: update"]}
{"id": "C98", "title": "Convex splitting with its reductions under every schedule of the ranks", "statement": "Programs of sweeps, swaps and ghost exchanges with MPI_Allreduce between them, where what comes next may depend on the sums, run on ranks that go on at their own speed (one may have left a reduction and exchange ghosts while another has not left it yet): (1) runs have bounded length; (2) as long as not all ranks have ended and none calls MMSP::Abort, some rank can go on, even if sends complete only when received; (3) when all ranks have ended no message is left and they hold what lock-step execution gives; a rank calls Abort only if lock-step execution does. (4) For update of the convex splitting example: when all ranks have returned, the serial program returns too and every rank holds its field on its nodes; a rank calls Abort(-1) only if the serial program does; and runs that come to an end exist.", "quantifier": "every schedule, buffered or synchronous sends, every decomposition with even periods and coordinates that are not negative, every number of steps and iterations, all parameters, all initial fields and stale ghosts", "why_tests_cant": "The number of interleavings grows exponentially; a missing synchronisation shows up only for rare timings, and the number of solver iterations depends on the data.", "anchors": ["examples/phase_transitions/cahn-hilliard/convex_splitting/cahn-hilliard.cpp: 276-461", "include/MMSP.grid.cpp: ghostswap 414-515", "include/MMSP.utility.cpp: Abort 30-36"]}
{"id": "C99", "title": "Ostwald ripening and solidification restarted from files on any numbers of ranks", "statement": "(1) Programs whose grids have two cell types (vectors in the file, scalars in an auxiliary grid that is exchanged too): sessions on any numbers of ranks, each continuing from the file of the one before, succeed, and whoever reads the last file obtains node for node what the serial program computes with the same calls of update. (2) For Ostwald ripening this is the field of one serial run with k1+k2+... steps: the potential grid wspace is not in the file and need not be. (3) For solidification it is what the serial program computes when it calls update once per session; because each call overwrites refGrid this differs from one long call (C69).", "quantifier": "every number of sessions, ranks, steps, ghost width >= 1, every right-hand side, every content of uninitialised memory of the right type, every order of the bytes of MPI writes, grids whose blocks fit into an int", "why_tests_cant": "Numbers of sessions, ranks and steps are unbounded; state that is lost with the auxiliary grid shows up only at particular divisions of a run.", "anchors": ["examples/coarsening/ostwald_ripening/isotropic/phase_field/ostwald.cpp: 56-126", "examples/phase_transitions/solidification/anisotropic/solidification.cpp: 50-167", "include/MMSP.main.hpp: 275-346", "include/MMSP.grid.cpp: input 1183-1246, output 1360-1543"]}
{"id": "C100", "title": "Parallel Monte Carlo grain growth is a serial sequence of attempts", "statement": "(1) If all loops of the ranks end, update on several ranks has no undefined behaviour, and afterwards the spins of all ranks, ghosts included, are those that the serial program reaches by the same attempts made sublattice by sublattice, one rank after the other in any order, each at the site the rank had drawn and with the same further random numbers: no attempt has used an outdated ghost. (2) The run returns exactly if on every rank and in every turn enough of the numbers drawn hit sites of the rank. (3) No spin appears that was on no rank before. (4) Without thermal acceptance the number of unlike neighbour pairs of the whole grid, pairs across the borders of the ranks included, never grows.", "quantifier": "every number of ranks, steps, every sequence of random numbers on every rank (equal or different), every order of the ranks, every initial spins, two or three dimensions, one ghost layer, even side lengths, every selection and acceptance rule", "why_tests_cant": "Random numbers, ranks and spins range over unbounded sets; a conflict between two ranks would show only when both happen to draw neighbouring sites across their border in the same turn.", "anchors": ["examples/coarsening/grain_growth/isotropic/Monte_Carlo/graingrowth.cpp: 62-372", "examples/coarsening/grain_growth/anisotropic/Monte_Carlo/graingrowth.cpp: 63-376", "include/MMSP.grid.cpp: ghostswap 414-1054"]}
{"id": "C101", "title": "Parallel spin models return on every number of ranks", "statement": "update of the Ising, Potts and Heisenberg models and of the Monte Carlo programs of zener_pinning returns on all ranks, whatever the speeds of the ranks and of the messages. (False of the code for Ising, Potts and Heisenberg in two and three dimensions: a rank exchanges ghosts after every gss-th attempt with gss the integer square root of its own number of nodes, so the number of exchanges per step is the ceiling of n/floor(sqrt n) and differs between ranks. The program returns exactly if these numbers agree, and otherwise every run gets stuck, even if barriers held nobody back. The grids that generate makes hang on 7 ranks in two dimensions and on 3 ranks in three, in the first step, whatever is drawn. It returns in one dimension, when all ranks have equally many nodes, and for zener_pinning, where there is one exchange per step.)", "quantifier": "every number of ranks and decomposition, steps, every schedule of the ranks and of the messages with buffered and unbuffered sends, every random numbers, every acceptance rule", "why_tests_cant": "Whether a run hangs depends on the arithmetic of the decomposition; a test on 2, 4 or 8 ranks, or on 3 and 5 ranks in two dimensions, passes. That no schedule whatever can finish, or that every one does, is a statement about all interleavings.", "anchors": ["examples/statistical_mechanics/Ising/ising.cpp: 46-124", "examples/statistical_mechanics/Potts/potts.cpp: 47-125", "examples/statistical_mechanics/Heisenberg/heisenberg.cpp: 62-145", "examples/coarsening/zener_pinning/isotropic/Monte_Carlo/zener.cpp: 96-200", "examples/coarsening/zener_pinning/anisotropic/Monte_Carlo/zener.cpp: 97-205", "include/MMSP.grid.cpp: ghostswap 414-515"]}
{"id": "C102", "title": "Parallel spin models: one result for every schedule, and spins stay spins", "statement": "When the ranks execute update of the Ising, Potts or Heisenberg model, each with its own number of attempts and its own random numbers, then for every interleaving of the ranks and every order of delivery of the messages a run in which all ranks return ends with the same data on every rank, namely that of lock-step execution in which all ranks exchange ghosts together after their own attempts; no message is left over, and no rank has read or written outside its array. If the nodes held up or down spins (states 0 to 19, unit vectors) at the start, all cells, ghosts included, do so at the end, whatever the ghosts held before.", "quantifier": "every grid and decomposition with at least one ghost layer, boundary conditions, steps, random numbers of every rank, acceptance rule, and schedule with buffered or unbuffered sends", "why_tests_cant": "A race shows only in particular interleavings, and the ranks do different numbers of attempts between exchanges; out-of-range neighbour reads return plausible ints.", "anchors": ["examples/statistical_mechanics/Ising/ising.cpp: 46-124", "examples/statistical_mechanics/Potts/potts.cpp: 47-125", "examples/statistical_mechanics/Heisenberg/heisenberg.cpp: 62-145", "include/MMSP.grid.cpp: ghostswap 414-515"]}
{"id": "C103", "title": "The parallel Ising model does more than reorder attempts", "statement": "A parallel run of the Ising model is in general not a serial run with its attempts in some order: two ranks flip the two sites at the border between them in the same interval between exchanges, each seeing the other's old spin. On a ring of eight nodes with two ranks, all spins up, and a test number that accepts no increase of the energy (RAND_MAX), there are sites to draw with which the parallel program, under every schedule, ends with nodes 3 and 4 both down, while serially no sequence of attempts with that test number, of any length and at any sites, ends so. (Compare the grain growth program, whose sublattices exclude this: C100.)", "quantifier": "every schedule; serially every sequence of sites of any length; every acceptance rule with a number that accepts no increase", "why_tests_cant": "A test sees plausible spins in either build; that a state cannot be reached by any serial sequence is a statement about infinitely many runs.", "anchors": ["examples/statistical_mechanics/Ising/ising.cpp: 46-124", "include/MMSP.grid.cpp: ghostswap 414-515"]}
{"id": "C104", "title": "Zener pinning generated on several ranks: what the file holds", "statement": "In an MPI build generate of the Zener examples (dense, sparse and Monte Carlo) succeeds on every number of ranks without an access outside the memory of a rank, and writes one file, the same for every order of the writes. In the field of that file a node is a particle exactly if it is within one step of the centre of a particle placed by the rank that owns the node; all other nodes hold the grains. So, unlike in the serial program, particles are cut: there are random numbers with which on every number of ranks (also on one) each rank has a particle beside whose centre a node of the periodic grid is not a particle. And np ranks place at least np times as many particles as the serial program; np*np times if the grid has up to 8192 nodes and divides evenly (1024 nodes: 400 particles serially, 6400 on four ranks).", "quantifier": "every grid, number of ranks and layers of ghosts for which the grid constructor works, every non-negative sequence of random numbers per rank, every content of the new arrays", "why_tests_cant": "The random numbers depend on the clock, the files of serial and parallel runs look alike, and the lost parts of particles are in ghost cells that are never written.", "anchors": ["examples/coarsening/zener_pinning/isotropic/phase_field/zener.cpp: generate 13-102", "examples/coarsening/zener_pinning/isotropic/sparsePF/zener.cpp: generate 13-98", "examples/coarsening/zener_pinning/isotropic/Monte_Carlo/zener.cpp: generate 13-84", "include/MMSP.utility.cpp: check_boundary 36-68", "include/MMSP.grid.cpp: output 1360-1543"]}
{"id": "C105", "title": "Grain growth from generate to the last restart", "statement": "Running a phase-field grain growth example (isotropic or anisotropic, dense or sparse) from nothing, with --example on n0 ranks (or serially), then k1 steps on n1 ranks, k2 steps from the resulting file on n2 ranks and so on, succeeds, and every last file that can come out holds node for node what the serial program computes in k1+k2+... steps from the serial initial condition, whatever was in the memory of new grids and ghosts and in whatever order the writes of the ranks take effect.", "quantifier": "every grid, spacing, boundary conditions, number of ranks in each part, ghost layers, lengths of the parts, right-hand side of the kind in the code, contents of uninitialised memory", "why_tests_cant": "It joins generate, output, input, decomposition, ghost exchange and the time loop for every choice of ranks; a test fixes one.", "anchors": ["examples/coarsening/grain_growth/isotropic/phase_field/graingrowth.cpp", "examples/coarsening/grain_growth/anisotropic/phase_field/graingrowth.cpp", "examples/coarsening/grain_growth/isotropic/sparsePF/graingrowth.cpp", "examples/coarsening/grain_growth/anisotropic/sparsePF/graingrowth.cpp", "include/MMSP.main.hpp: 91-122, 126-226"]}
{"id": "C106", "title": "Convex splitting starts with a consistent chemical potential on any number of ranks", "statement": "generate of the convex splitting example, on every number of ranks, succeeds and writes one file, whatever the order of the writes. Its field 0 is at every node what the owner of the node filled in (random numbers, or the cosine of the benchmark), and its field 1 is at every node the chemical potential f'(c) - K * laplacian(c) of the field 0 of the whole periodic grid, also where neighbours belong to other ranks, although the loop reads the array it is writing. If field 0 is a function of the position, the file holds exactly what the serial program computes.", "quantifier": "every grid with periodic or other closed faces, number of ranks, at least one layer of ghosts, random numbers of every rank, contents of new arrays, spacing and free energy", "why_tests_cant": "A missing exchange shows only at the nodes along rank borders ('window frame'), and how it shows depends on the decomposition and the random numbers.", "anchors": ["examples/phase_transitions/cahn-hilliard/convex_splitting/cahn-hilliard.cpp: generate 215-274, field_laplacian 138-157", "include/MMSP.grid.cpp: ghostswap 414-515, output 1360-1543"]}
{"id": "C107", "title": "How far rounding can move the mass in the explicit Cahn-Hilliard update", "statement": "With every + - * / rounded to nearest, ties to even, to p binary digits (u=2^-p), on a serial grid whose axes are periodic or clamped on both sides: one pass of the explicit Cahn-Hilliard update (and of model B, with any noise, and of any other chemical potential, however rounded) returns and changes the total of the stored numbers by at most u*sum|phi| + ((1+u)^(dim+5)-1)*4|c|*sum(1/dx^2)*sum|mu|, c=dt*M; n passes by at most the sum of these. For the Cahn-Hilliard example this is a bound per node and step that depends only on the bound of the field. With its own constants, in doubles, in 1 to 3 dimensions: as long as the values stay within +-2 the mean moves by at most 2^-47 per step. Exact conservation (C29) is false in doubles: on three periodic nodes 1,0,0 one step takes the total from 1 to 1-2^-54. On any number of ranks the numbers are those of the serial program, so the same bounds hold for the sum of the masses of the ranks.", "quantifier": "every precision, dimension, grid size, spacing, time step, chemical potential, initial field, number of steps, decomposition and ghost width >= 1", "why_tests_cant": "Tests compare totals with a tolerance chosen by hand; how the error grows with steps and nodes, and that it grows no faster, is a statement about all runs.", "anchors": ["examples/phase_transitions/cahn-hilliard/explicit/cahn-hilliard.cpp: update 47-81", "examples/phase_transitions/model_B/model_B.cpp: update 74-112", "include/MMSP.grid.cpp: laplacian 2049-2066, 2130-2134"]}
{"id": "C108", "title": "Moving the initial field along periodic axes moves the result", "statement": "Allen-Cahn, Cahn-Hilliard, the dense and sparse phase-field updates, Ostwald ripening and solidification treat all nodes alike. If the initial field of a second run is that of a first run, moved by any number of nodes round periodic axes (and the grid may have other coordinates), then after any number of steps both runs return and the second field is the first one, moved in the same way, bit for bit in any arithmetic. A field that does not vary along a periodic axis never varies along it. The same holds for runs on any two numbers of ranks with independently chosen decompositions and ghost widths.", "quantifier": "every program of loops whose right-hand side depends on the node only through what it reads, every dimension, grid, shift, number of steps, pair of decompositions", "why_tests_cant": "A test compares one field with one shift; that no node, boundary wrap or rank boundary is special is a statement about all of them.", "anchors": ["include/MMSP.utility.h: check_boundary", "include/MMSP.grid.cpp: laplacian 2049-2134, ghostswap 414-515", "examples/phase_transitions/allen-cahn/allen-cahn.cpp: update 47-75", "examples/phase_transitions/cahn-hilliard/explicit/cahn-hilliard.cpp: update 47-81", "examples/phase_transitions/solidification/anisotropic/solidification.cpp: update 50-170", "examples/coarsening/ostwald_ripening/isotropic/phase_field/ostwald.cpp: update"]}
{"id": "C109", "title": "Change of sign, exchange of axes and reflection", "statement": "The explicit Allen-Cahn and Cahn-Hilliard updates. (1) If the initial field changes sign, the result after any number of steps changes sign, bit for bit, also in floating-point arithmetic; the shipped right-hand sides have the oddness this needs. (2) In exact arithmetic, if the axes are exchanged in any way and any of them run through backwards, together with spacings and boundary conditions, the result is the same field turned; so a symmetric field stays symmetric. (3) On plane grids the exchange of the two axes carries over bit for bit also with rounding. (4) Reflection does not: in doubles with the shipped constants a field on three periodic nodes and its mirror image evolve into fields that are not mirror images after one step.", "quantifier": "every dimension, grid, boundary conditions, spacings, right-hand side (odd ones for the sign), number of steps, permutation of axes and set of reversed axes, precision", "why_tests_cant": "A test looks at chosen symmetric fields and would need a tolerance, which hides that the stencil sum yh-2*y+yl is not symmetric under rounding.", "anchors": ["examples/phase_transitions/allen-cahn/allen-cahn.cpp: update 47-75", "examples/phase_transitions/cahn-hilliard/explicit/cahn-hilliard.cpp: update 47-81", "include/MMSP.grid.cpp: laplacian 2049-2066", "include/MMSP.utility.h: check_boundary"]}
{"id": "C110", "title": "The explicit Cahn-Hilliard update loses energy", "statement": "update(grid, steps) of the explicit Cahn-Hilliard example, exact arithmetic, closed grid. (1) As long as the values before and after a pass stay within +-B and dt*M*w*L <= 1 (w the sum of 2/dx^2, L >= 3uB^2-r+2Kw), each pass lowers the free energy by at least dt*M*(1-dt*M*w*L) times the squared difference quotients of the potential in temp; a pass that does not lower it changes nothing. (2) If the initial energy does not suffice to lift one node to B, no value ever leaves +-B, the energy falls in every pass, and among the first n passes one has a potential that is constant up to O(1/n). (3) The same on any decomposition into ranks. (4) With the shipped constants and unit spacing (1) covers B = 3.9, 2.4, 1.3 on one, two, three axes. (5) The bound is needed: for every time step there is an initial field on three nodes from which the energy grows in every pass and the values grow without bound.", "quantifier": "every dimension, closed boundary conditions, spacings, coefficients, initial field, number of steps, decomposition", "why_tests_cant": "A test sees the energy fall for some steps of one field; it cannot tell how large a field or time step may be, nor that the energy falls for ever.", "anchors": ["examples/phase_transitions/cahn-hilliard/explicit/cahn-hilliard.cpp: update 47-81", "include/MMSP.grid.cpp: laplacian 2049-2066"]}
{"id": "C111", "title": "Allen-Cahn in floating point never leaves its bounds", "statement": "update(grid, steps) of the Allen-Cahn example, every operation rounded to p significant binary digits, ties to even, pow(phi,3) accurate to two roundings, odd and exact at 1. (1) If at R the double well pulls back more than one step's rounding errors (an explicit bound), and the time step is small, then a field within +-R is within +-R after any number of steps: rounding errors do not add up. (2) With r <= u and one inequality between time step and 2^-p a field within +-1 never leaves +-1, not by one unit in the last place. (3) The constants of the example in double precision with unit spacing satisfy (2), and (1) with R = 2, on one, two and three axes; so generate's field gives values in [-1,1] for ever. (4) All of it on any decomposition into ranks, for all boundary conditions (mirrored axes at least two nodes wide).", "quantifier": "every precision, dimension, boundary conditions, spacings, coefficients, initial field within the bound, number of steps, decomposition", "why_tests_cant": "A run shows that values stay bounded for its number of steps; a drift of one rounding error per step, or an overshoot by one unit in the last place, may show only after 10^15 steps or for a rare combination of neighbours.", "anchors": ["examples/phase_transitions/allen-cahn/allen-cahn.cpp: generate 12-45, update 47-75", "include/MMSP.grid.cpp: laplacian 2049-2066"]}
{"id": "C112", "title": "Allen-Cahn: comparison, stability, and how far floating point is from exact arithmetic", "statement": "update(grid, steps) of the Allen-Cahn example on fields within +-R, R at or outside the wells, time step below an explicit limit. (1) Of two initial fields, one nowhere above the other, the results have the same order; in particular a field that is nowhere negative stays so. (2) Two initial fields that differ by at most E give results that differ by at most (1+dt*M*r)^n E after n steps. (3) A field that is at least a > 0 everywhere stays so and approaches the bottom s of the well: the largest distance falls by the factor 1-dt*M*u*a*(a+s) in each step. (4) The run in floating point with p digits and the run in exact arithmetic differ after n steps by at most (1+dt*M*r)^n times the initial distance plus an explicit error per step times the sum of (1+dt*M*r)^j, j < n. (5) With the shipped constants in double precision on one to three axes that is 300*2^-53*1.01^n; after up to 1000 steps all values are right to 10^-9. (6) (1) and (4) on any decomposition into ranks. (7) The limit is needed: with time step 1 a field that is nowhere negative gets a negative value in one step.", "quantifier": "every dimension, boundary conditions, spacings, coefficients, pairs of initial fields, precision, number of steps, decomposition", "why_tests_cant": "A test runs one field in one precision and has no exact result to compare with; order, stability and error bounds concern all pairs of fields and all numbers of steps.", "anchors": ["examples/phase_transitions/allen-cahn/allen-cahn.cpp: update 47-75", "include/MMSP.grid.cpp: laplacian 2049-2066"]}
{"id": "C113", "title": "Allen-Cahn in IEEE doubles, with overflow and underflow, never leaves [-1,1]", "statement": "Numbers as in IEEE 754 binary formats (here double; also float): finite significand, smallest exponent with gradual underflow, largest exponent above which a result is not finite, every operation rounded to nearest even. (1) The Allen-Cahn example with the shipped constants (dt = 0.01 as stored in a double, M = r = u = K = 1, spacing 1, up to three axes), started from finite values within +-1, has only finite values within +-1 in all nodes after any number of steps: nothing overflows, no NaN or infinity occurs. pow(phi,3) may be two products or one correctly rounded cube, or anything that is right to two roundings and exact at +-1. (2) The same for other constants below an explicit limit, and on any decomposition into ranks. (3) The initial values 1-2*rand()/RAND_MAX are within +-1. (4) After up to 1000 steps every value is within 10^-9 of exact arithmetic. (5) Values outside +-1 do not have this protection: from the finite constant field 2^400, one step gives a value that is not finite in every node. (6) A double is eight bytes, little endian: writing is one to one and 1.0 is 00 00 00 00 00 00 f0 3f.", "quantifier": "every field of finite doubles within +-1, boundary conditions, number of steps up to any bound, decomposition, pow implementation of the stated accuracy", "why_tests_cant": "Overflow, underflow and the last bit depend on the value of each node; tests run a few fields for few steps, not all 2^64 values in all nodes.", "anchors": ["examples/phase_transitions/allen-cahn/allen-cahn.cpp: generate 13-44, update 47-75", "include/MMSP.grid.cpp: laplacian 2049-2066"]}
{"id": "C114", "title": "Random starts on any ranks, and Allen-Cahn in doubles from generate to the last restart", "statement": "(1) generate of the examples with one random number per node (Allen-Cahn, Cahn-Hilliard, Ising, Potts, Monte Carlo grain growth), run serially or on any number of ranks, writes a file, and every such file holds at the node with index i on rank r the value made of random number i of rank r; whoever reads it, on any number of ranks, finds these values. (2) Allen-Cahn in doubles: from every such file every chain of restarts on any numbers of ranks can be run to its end, with any step counts, and each file on the way, eight bytes per node, holds finite numbers within +-1 at all nodes. (3) With up to 1000 steps in all, the last file agrees to 10^-9 with the exact solution of the scheme from the values in the first file.", "quantifier": "every sequence of random numbers per rank, numbers of ranks, ghost widths, order of the writes, step counts, uninitialised memory, grid size below the 2 GB limit of MPI", "why_tests_cant": "The result depends on random numbers, on the decomposition at generation and at each restart, and on the order of writes; a test fixes one of each.", "anchors": ["examples/phase_transitions/allen-cahn/allen-cahn.cpp: generate 13-44, update 47-75", "include/MMSP.main.hpp: 91-220", "include/MMSP.grid.cpp: output 1360-1543, input 1183-1353"]}
{"id": "C115", "title": "What the export tools show of a run", "statement": "The tools mmsp2tsv, mmsp2vti, mmsp2png and mmsp2xyz, started on any file that holds a field (written serially or by any number of ranks, compressed or not), show exactly the field: (1) their output is what they would produce from the same field in the memory of a serial program, so two files with the same field give identical output; (2) mmsp2tsv leaves all other files alone and writes one line per node, in node order, with the coordinates scaled by the spacings of the file and the values of the cell, and every point of the box has its line; (3) mmsp2vti makes an image with limits and spacings of the file in which every point has its numbers at its place; (4) mmsp2png makes a complete picture in which every pixel is the shade of the value at its point relative to the smallest range that holds the zoom limits and all values; (5) mmsp2xyz lists exactly the places of the points whose value is near a level. (6) After any chain of Allen-Cahn sessions on any numbers of ranks they show the result of the serial run; in doubles from random initial values every pixel is the shade of a finite number within +-1, and white is 1.", "quantifier": "every field, box, dimension 1 to 3, number of writing ranks and order of writes, header, cell type for which the file is readable (C49, C72), levels, slices; every starting file system for mmsp2tsv", "why_tests_cant": "The output depends on the whole file, whose layout depends on the number of ranks and the order of their writes; a test compares one picture.", "anchors": ["utility/mmsp2tsv.cpp: 44-672", "utility/mmsp2vti.cpp: 60-514", "utility/mmsp2png.cpp: 228-756", "utility/mmsp2xyz.cpp: 147-959", "include/MMSP.grid.cpp: grid(filename) 132-139, input 1183-1353", "include/MMSP.output.cpp"]}
{"id": "C116", "title": "Convex splitting from generate to the last restart", "statement": "A run of the convex-splitting Cahn-Hilliard program may be cut into sessions, each of which reads the file of the one before, calls update and writes a file, serially or on its own number of MPI ranks with its own ghost width. Then (1) either every sequence of sessions ends with a file that holds exactly the field that one serial program computes with the same calls of update, and the sessions can be carried out; or that serial program stops with -1 because the solver stagnates, some session stops with -1, and the last session never leaves a file. No session does anything undefined and no rank is left waiting. (2) The files carry the spacing of the program, whatever spacing the first file had. (3) From generate on: the first file holds the chosen composition with its chemical potential, the last the end of a list of fields with one member per step, each with a residual that passed the test, and the total mass of the last file is that of the first up to the sum of the bounds per step. (4) A field that solves the equations of a step with itself comes out of all sessions unchanged.", "quantifier": "every number and division of steps, every number of ranks, ghost width at least 1 and order of writes per session, every initial composition, both energies, all contents of freshly allocated memory; boxes with nonnegative coordinates and even periodic axes", "why_tests_cant": "The number of iterations is decided by a sum over all ranks and a wrong or missing term changes it only for some fields and decompositions; a restart from another number of ranks is one of endlessly many.", "anchors": ["examples/phase_transitions/cahn-hilliard/convex_splitting/cahn-hilliard.cpp: generate 215-274, update 276-463", "include/MMSP.main.hpp: 300-324", "include/MMSP.grid.cpp: input 1183-1246, output 1360-1543"]}
{"id": "C117", "title": "Isotropic grain growth and Zener pinning lose energy and come to rest", "statement": "update(grid, steps) of the isotropic examples on grids of vectors (grain growth, and Zener pinning with its immobile first field), exact arithmetic, closed grid, n fields starting in [0,1], dt(3n+sum of 4/dx^2) <= 1. (1) From every step to the next the free energy -sum phi^2/2 - sum phi^4/4 + (sum phi^2)^2/2 over the nodes plus the squared difference quotients of all fields falls by at least half of the squared change of the grid; a step that does not lower it changes nothing. (2) No grid has less energy than -nodes/4, and a grid without negative fields has that much exactly if every node is inside a grain (one field 1, the others 0) and neighbours are in the same grain. (3) The squared changes of all steps together never exceed twice the excess of the initial energy over that of a single grain, so among the first k steps one changes the grid by no more than that divided by k. (4) The same on any decomposition into ranks. (5) The shipped time step 0.01 with unit spacing qualifies for up to 29 fields on one to three axes. (6) The limit is needed: with time step 1 the energy of two grains grows in the first step.", "quantifier": "every closed grid of every dimension, number of fields, initial values in [0,1], number of steps, spacing and time step below the limit; any decomposition", "why_tests_cant": "That the energy falls at every step for all initial values is a statement about infinitely many runs; a wrong coefficient in the right-hand side gives plausible pictures that follow no energy.", "anchors": ["examples/coarsening/grain_growth/isotropic/phase_field/graingrowth.cpp: update 73-111", "examples/coarsening/zener_pinning/isotropic/phase_field/zener.cpp: update 104-142"]}
{"id": "C118", "title": "Isotropic grain growth and Zener pinning in IEEE doubles stay finite and between 0 and 1, and grain interiors do not change by one bit", "statement": "update(grid, steps) of the isotropic examples on grids of vectors (grain growth; Zener pinning with its immobile first field), computed in IEEE binary floating-point numbers (double or any other format): every operation rounded to nearest even, gradual underflow, overflow and NaN as a separate outcome; pow(phi,3) any function accurate to two roundings that is not negative on [0,1]. (1) If all initial values are finite numbers from 0 to 1, all values after any number of steps are finite numbers from 0 to 1 - exactly, not up to rounding - if the time step is small: dt*4*max(2^s,2^(k+d)) <= 1 and dt*(17+4*2^(k+d)) <= 1/2 for at most 2^s fields and d axes with 1/dx^2 <= 2^k. (2) In Zener pinning the particle field is unchanged bit for bit. (3) dt = 0.01 as a double with unit spacing qualifies on one to three axes for up to sixteen fields. (4) Whatever the time step: a node more than `steps` hops away from every cell that does not belong to its grain (its field 1, all others 0) holds after `steps` steps bit for bit what it held before. (5) All this on any decomposition into ranks, with stale ghosts. (6) The limit is needed: with time step 1 two overlapping grains, 1 everywhere, are -1 everywhere after one step. (7) With exact numbers the right-hand sides are those of C65 and C117.", "quantifier": "every grid of every dimension with any mix of boundary conditions, every number of fields, steps, ranks, all finite initial values in [0,1], every format with at least two digits, every pow within the stated accuracy", "why_tests_cant": "A test runs finitely many doubles; whether a rounding error can push a value below 0 or above 1 somewhere, ever, or whether underflow breaks the bound near 0, is a statement about all of them.", "anchors": ["examples/coarsening/grain_growth/isotropic/phase_field/graingrowth.cpp: update 73-111", "examples/coarsening/zener_pinning/isotropic/phase_field/zener.cpp: update 104-142", "include/MMSP.grid.cpp: laplacian 2068-2089"]}
{"id": "C119", "title": "Grain growth and Zener pinning in doubles from generate to the last restart, and what uninitialised memory does", "statement": "The isotropic examples on grids of vectors of doubles, run as a user runs them: generate writes a file on some number of ranks, then k1 steps on n1 ranks write the next, k2 steps on n2 ranks from that one the next, and so on. (1) From any file of numbers between 0 and 1 (up to 16 fields, unit spacing, dt = 0.01) every such chain can be run to its end, and every file on the way holds finite numbers between 0 and 1; in Zener pinning the particle field in every file equals that of the first bit for bit. (2) Grain growth from nothing: the chain starting with --example on any number of ranks, in memory of any content, ends, with finite numbers between 0 and 1; nodes that began more than k1+k2+... hops inside (outside) the grains still hold exactly (0,1) (exactly (1,0)). (3) Zener pinning from nothing on any number of ranks: the same if the memory that generate leaves uninitialised happens to hold numbers between 0 and 1; the first field in every file is exactly 1 on the particles generate placed and exactly 0 elsewhere. (4) If one uninitialised number outside the grains is not finite (NaN), it spreads one hop per step: after k+1 steps, in however many sessions, both moving fields of the file are not finite at every node within k hops.", "quantifier": "every periodic or other grid of one to three dimensions, every chain of sessions, numbers of ranks and steps, random numbers, contents of new memory, order of writes; every pow accurate to two roundings", "why_tests_cant": "Quantifies over all chains of sessions and contents of memory; that zeroed memory hides the missing initialisation is why tests do not see (4).", "anchors": ["examples/coarsening/zener_pinning/isotropic/phase_field/zener.cpp: generate 12-102, update 104-142", "examples/coarsening/grain_growth/isotropic/phase_field/graingrowth.cpp: generate 12-71, update 73-111", "include/MMSP.main.hpp: 91-354", "include/MMSP.grid.cpp: input 1183-1353, output 1360-1543"]}
{"id": "C120", "title": "The Poisson example under the driver: every second file has the wrong sign", "statement": "update of the Poisson example ignores its step count and replaces the right-hand side by the solution, so the driver, which calls it once per increment, solves again with the previous result as right-hand side. In one dimension, from a file on 2^k+1 nodes (k at least 3) with a right-hand side positive at all inner nodes: (1) the c-th file written is 0 at the ends and has the sign (-1)^c at every inner node, whatever the increment, and is at most (4 dx^2)^c times the largest right-hand side; (2) the solution is negative at every inner node; (3) so for example.dat the command lines `20 20` and `20 10` both end by writing example.20.dat, with opposite signs at every inner node, and only the first has the sign of the solution.", "quantifier": "every such grid, spacing and right-hand side, numbers of steps, increments, file names, contents of fresh memory in every call", "why_tests_cant": "A test runs one increment; the claim is about every number of calls, all sizes and all right-hand sides.", "anchors": ["examples/differential_equations/elliptic/Poisson/poisson.cpp: update 236-248", "examples/differential_equations/elliptic/Poisson/multigrid.hpp: FMG 197-212", "include/MMSP.main.hpp: 271-298"]}
{"id": "C121", "title": "Grain growth and Zener pinning: nearby runs stay nearby, and doubles stay near exact arithmetic", "statement": "Isotropic grain growth and Zener pinning. (1) Exact arithmetic: two initial grids with fields between 0 and 1 that differ by at most E (Zener: with equal particles) give, after n steps, fields between 0 and 1 that differ by at most (1+dt*rate)^n E; rate is the larger of 1 and 2m-2, m being the number of other changing fields (1 in both examples), and does not depend on the grid spacing, the dimension or the size. (2) IEEE numbers beside exact arithmetic: the same growth of the initial distance and of the error of each step, which is given in terms of the format. (3) The examples as shipped: after up to 1000 steps in double every value is within 2e-9 of exact arithmetic, in one to three dimensions, on any grid and any number of ranks; particles are equal to the last bit. (4) Two computers whose pow rounds differently get results at most 4e-9 apart.", "quantifier": "every grid with room for the stencil, boundary conditions, number of fields, format, spacing, time step within the limit, initial fields from 0 to 1, any pow within two roundings, number of ranks, contents of ghosts", "why_tests_cant": "There is no exact run to compare with, and a bound must hold for all grids, all initial fields and all ways of rounding pow.", "anchors": ["examples/coarsening/grain_growth/isotropic/phase_field/graingrowth.cpp: update 73-111", "examples/coarsening/zener_pinning/isotropic/phase_field/zener.cpp: update 104-142", "include/MMSP.grid.hpp: laplacian"]}
{"id": "C122", "title": "Grain growth and Zener pinning: which grain can be where", "statement": "Isotropic grain growth and Zener pinning. (1) Exact arithmetic, time step within the limit, fields from 0 to 1: if one initial grid has at every node at least as much of a grain and at most as much of the only other changing grain as another initial grid (equal particles), it has so after any number of steps. (2) One grain and particles: with more particles there is at every node at most as much of the grain. (3) Any number of grains: a grain that is at no node above another one never is; PF2MC then never shows its number if it is the later of the two. With a large time step this is false. (4) Exact arithmetic, any time step: renumbering the fields of the initial grid (Zener: with field 0 kept) renumbers the result and changes nothing else. (5) Any arithmetic, any pow, any time step: two fields that are equal at every node stay equal bit for bit. (6) IEEE numbers: a field that is 0 at every node at most n hops from a node is exactly 0 at the node after n steps, on any number of ranks; a field that is 0 everywhere never appears.", "quantifier": "every grid with room for the stencil, boundary conditions, number of fields, spacing, time step within the stated limit, initial fields, number of steps, format, number of ranks, contents of ghosts", "why_tests_cant": "Order between runs and between fields is a statement about all pairs of grids and all later times; a wrong sign or a wrong index can keep it on the initial grids of the examples.", "anchors": ["examples/coarsening/grain_growth/isotropic/phase_field/graingrowth.cpp: update 73-111", "examples/coarsening/zener_pinning/isotropic/phase_field/zener.cpp: update 104-142", "include/MMSP.grid.hpp: laplacian"]}
{"id": "C123", "title": "Monte Carlo grain growth is at zero temperature, and when it stops", "statement": "(1) With kT = 1.3803288e-23*273.0 as in the file, in doubles, no attempt with a positive energy change is ever accepted, whatever rand() returns, 0 included; dE, summed in doubles, has no rounding error and is half the number of neighbours of the old spin less half the number of neighbours of the new. (2) So no run of the program as shipped, serial or on any number of processes, ever increases the number of unlike neighbour pairs of the whole grid. (3) No attempt can change the spins exactly if every site that can be selected has more like neighbours than neighbours of any one other spin; such spins stay as they are for any number of steps, serial and on any number of processes. (4) Two grains that meet in a plane, each at least two layers thick, in a box with two or more nodes along some other axis, are of this kind: the boundary never moves and more than one grain is left for ever.", "quantifier": "every box of two or three dimensions, spins, numbers drawn, site selection, number of steps, number of processes (even side lengths, one ghost layer), RAND_MAX, exp that returns 0 below -746", "why_tests_cant": "Thermal activation that is never seen in a run could be rare or impossible, and a boundary that has not moved could be slow or stuck; a test sees finitely many draws.", "anchors": ["examples/coarsening/grain_growth/isotropic/Monte_Carlo/graingrowth.cpp: update 312-363", "examples/coarsening/grain_growth/anisotropic/Monte_Carlo/graingrowth.cpp: update 316-367"]}
{"id": "C124", "title": "The Ising and Potts examples in doubles sample the same distributions", "statement": "(1) In doubles the sums and energy changes of both examples, and the temperatures 0.50 and 0.75, have no rounding error. (2) For a given positive energy change the test r<exp(-dE/kT) in doubles comes out otherwise than with real numbers for at most one of the RAND_MAX+1 numbers that rand() can return. (3) After n attempts the distributions of the configuration in doubles and with real numbers differ by at most 2n/(RAND_MAX+1) in total. (4) So from any configuration the examples in doubles approach the Gibbs distribution of their energy (for Potts, weighted as in C94) up to 4n/(RAND_MAX+1).", "quantifier": "every periodic box of at most three dimensions (for 4, sides of at least 2), initial configuration, number of attempts, RAND_MAX up to 2^39, exp accurate to 2^-46 for arguments up to 0", "why_tests_cant": "The claim is about a distribution over all sequences of random numbers; a run sees one of them, and rounding changes the outcome of one draw in two thousand million.", "anchors": ["examples/statistical_mechanics/Ising/ising.cpp: update 47-125", "examples/statistical_mechanics/Potts/potts.cpp: update 48-126"]}
{"id": "C125", "title": "Monte Carlo Zener pinning: particles do not pin for ever", "statement": "(1) A grid with a single grain besides the particles never changes. (2) The spins are at rest exactly if no two neighbouring sites that are not particles have different spins. (3) If the particles do not separate the other sites, the probability that more than one grain is left after n attempts is at most (1-1/(RAND_MAX+1)^(3N))^(n/N) on N nodes, and so goes to 0, wherever the particles are: at the temperatures in the files no arrangement of particles pins a boundary for good (in contrast to C123). (4) This holds of both files with their acceptance tests in doubles. (5) Particles that do separate the sites keep two grains apart for ever.", "quantifier": "every periodic box of at most three dimensions, particles, initial spins, number of attempts, RAND_MAX from 26 to 2^39 and at least the number of nodes less one, exp positive between -128 and 128; (1) and (2) for all numbers drawn", "why_tests_cant": "Pinned and very slow look alike in any run: the bound becomes small only after far more attempts than can be made.", "anchors": ["examples/coarsening/zener_pinning/isotropic/Monte_Carlo/zener.cpp: update 89-205", "examples/coarsening/zener_pinning/anisotropic/Monte_Carlo/zener.cpp: update 90-210"]}
{"id": "C126", "title": "Monte Carlo Zener pinning on several ranks", "statement": "In the parallel build both Monte Carlo programs of zener_pinning return, whatever the numbers of nodes of the ranks, the numbers drawn and the speeds of ranks and messages (in contrast to the spin models of C101). When they have returned no message is left, no rank has had undefined behaviour, every spin, ghosts included, is one that was on some node of the grid before, and on every rank the particles (spin 0) are at exactly the nodes where they were. A grid with a single grain besides the particles is left as it was on all nodes of all ranks.", "quantifier": "every number of ranks, decomposition with at least one ghost, initial spins (ghosts may hold anything), energies, mobilities, acceptance tests, numbers drawn by each rank, numbers of steps, and schedule", "why_tests_cant": "Ranks choose sites beside each other at the same time and read ghosts that are out of date, in an order that differs from run to run.", "anchors": ["examples/coarsening/zener_pinning/isotropic/Monte_Carlo/zener.cpp: update 89-205", "examples/coarsening/zener_pinning/anisotropic/Monte_Carlo/zener.cpp: update 89-208", "include/MMSP.grid.h: ghostswap"]}
{"id": "C127", "title": "The random directions of the Heisenberg example, with real numbers and in doubles", "statement": "(1) The direction made from two results of rand() is a unit vector, and the directions are uniform on the sphere: the share of the pairs of results whose direction lies between two given meridians and two given heights is the share of the area up to 6/(RAND_MAX+1). (2) Because rand()/RAND_MAX takes both values 0 and 1 the mean is not zero: the first component is preferred, by at most 1/(RAND_MAX+1). (3) In doubles the argument of acos never leaves [-1,1], no component is undefined, the length squared is 1 up to 2^-46, the height is the exact one up to 2^-49 and the other components up to 2^-23. (4) The energy sum in doubles is finite and that of the same spins with real numbers up to 2^-40. (5) After any number of steps on any number of ranks under every schedule all spins, ghosts included, are finite and of length 1 up to 2^-46: rounding does not accumulate.", "quantifier": "every RAND_MAX (from 2 for (2), up to 2^38 for (3) to (5)), meridians and heights, results of rand(), grids of at most three dimensions, decompositions, schedules; (1) and (2) over all pairs of results", "why_tests_cant": "There are 2^62 pairs of results; a bias of 2^-31 and an argument of acos that exceeds 1 for a few of them would not be met in any test.", "anchors": ["examples/statistical_mechanics/Heisenberg/heisenberg.cpp: generate 20-26, 35-41, 50-56; update 62-145"]}
{"id": "C128", "title": "Potts and Heisenberg: runs with the same random numbers become equal whatever grid they start from", "statement": "(1) If two serial runs of the Potts or of the Heisenberg example draw the same random numbers but start from different grids, then after n attempts they have the same values at all N nodes, except for a share of at most (1-c^N)^(n div N) of the sequences of random numbers, where c = floor((RAND_MAX+1)/N)/(RAND_MAX+1)^2. (2) So the probability of every event that depends on the values at the nodes converges as n grows, at that rate, to a limit that does not depend on the initial grid. This holds for Heisenberg too, which has no energy whose Gibbs distribution it could sample (C94).", "quantifier": "every periodic grid in every number of dimensions, RAND_MAX (at least N-1 for (2)), temperature, number of attempts, pair of initial grids (spins outside the range and directions that are no unit vectors included), event", "why_tests_cant": "The statement is about all sequences of random numbers and all initial grids; the guaranteed rate is so small that no test would see the runs meet because of it.", "anchors": ["examples/statistical_mechanics/Potts/potts.cpp: update 67-123", "examples/statistical_mechanics/Heisenberg/heisenberg.cpp: update 82-143"]}
{"id": "C129", "title": "Convex splitting: every step has exactly one solution, and the iteration has exactly one fixed point", "statement": "The implicit equations that a step of the convex-splitting Cahn-Hilliard example is to solve have exactly one solution on the nodes of the grid, for both free energies, every positive time step and every old state. So one iteration over the red and the black nodes leaves exactly one state unchanged: the iteration cannot come to rest anywhere but at the next state. Taking the whole derivative at the new composition, instead of only its increasing part, loses this: two solutions are given.", "quantifier": "every serial grid whose faces are periodic, Neumann or mixed as in C57, every number of dimensions and nodes, spacing, old state and positive time step; for the second energy every pair of compositions 0 <= ca < cb, every c0, a, and b >= 0", "why_tests_cant": "That no second solution exists, and that one exists for time steps far beyond those used, cannot be seen from runs that happen to converge.", "anchors": ["examples/phase_transitions/cahn-hilliard/convex_splitting/cahn-hilliard.cpp: 34-131 (energies and their splitting)", "examples/phase_transitions/cahn-hilliard/convex_splitting/cahn-hilliard.cpp: update 290-414"]}
{"id": "C130", "title": "Convex splitting: the energy and mass that reportEnergy computes", "statement": "(1) reportEnergy of the convex-splitting example adds up, over all nodes, the free energy density plus K/2 times the squared central differences of the composition, and the composition. (2) On several ranks, if the compositions in the ghosts are up to date (for example after ghostswap), the sums that rank 0 receives are those of the serial program. (3) That energy is at most the energy which a solved step lowers (C57), so after a step it is below that energy before the step; but it need not fall itself: two states with four nodes are given, the second the solution of a step from the first, for which the reported energy rises while the mass stays.", "quantifier": "every closed serial grid, every number of dimensions, spacing, parameters and field; every partition into ranks with ghosts of width at least 1", "why_tests_cant": "Every call of the function is commented out, so no test runs it; and a test would have to know which of two discrete energies has to fall.", "anchors": ["examples/phase_transitions/cahn-hilliard/convex_splitting/cahn-hilliard.cpp: reportEnergy 178-214", "include/MMSP.grid.cpp: gradient 2154-2170, grad 2191-2194"]}
{"id": "C131", "title": "Tessellation with random seeds: how many grains there are", "statement": "(1) seeds_from_prng executes no undefined behaviour; on every rank it makes nseeds seeds inside the whole grid, so with MPI there are np * nseeds seeds. If the sides of the grid are powers of two, no draw has to be repeated. (2) In the exact tessellation that follows, every node of every rank gets one grain, and the grains that occur are exactly the seeds that do not coincide with an earlier one; so nothing is lost exactly if no two coincide. (3) Of the N^n outcomes of drawing n seeds among N nodes, N(N-1)...(N-n+1) are without repeats, contrary to the comment that repeats do not happen; for n > N there are none. (4) Ranks i < j have different seeds of the generator if j(j+1) is at most the time; two ranks beyond that with the same seed are given. Ranks with the same seed draw the same list, whatever memory contained, and then none of the seeds of the later one becomes a grain.", "quantifier": "every number of ranks, grid, clock value and number of seeds; every content of uninitialised memory; every sequence of outcomes of randInt", "why_tests_cant": "The seeds depend on the time of day and the number of ranks; a test sees neither all outcomes of the generator nor tens of thousands of ranks.", "anchors": ["algorithms/tessellate.hpp: seeds_from_prng 499-526, tessellate 565-580", "algorithms/MersenneTwister.h: randInt 300-317"]}
{"id": "C132", "title": "Convex splitting: an accepted step is close to the solution", "statement": "With the energy with three wells, and any time step: (1) for any state, if the sum R of the squared residuals of the two equations of a step satisfies 8 QA R <= QC, the sum over all nodes of the squared differences between its compositions and those of the solution is at most a constant times R; the constant is made of K, QA, QC, the spacings and the largest composition of the state, not of the solution. (2) So if the solver of update returns, what it returns is that close to the only solution of the step, with R at most (2 N tolerance)^2 times the squared norm of the right-hand sides (N nodes). (3) With the constants of the example, spacing 1, at most two axes and compositions in [-1,1] the constant is at most 20. (4) A uniform state is accepted after one iteration, unchanged.", "quantifier": "every closed serial grid, every number of dimensions and spacing, every parameters with 0 <= Ca < Cb and 0 <= B, every time step, initial state and iteration limit", "why_tests_cant": "The solution of the equations is not available to a test, and the residual that is printed says nothing about the distance to it unless such a constant is known for every state.", "anchors": ["examples/phase_transitions/cahn-hilliard/convex_splitting/cahn-hilliard.cpp: update 276-461, contractive_dfdc 115-119"]}
{"id": "C133", "title": "Cells written to a file are read back", "statement": "(1) Primitive, scalar and sparse cells written one after another with write are given back by as many calls of read, whatever the cells read into held, and the stream then stands behind them. (2) vector cells are given back if and only if the cells read into already have the lengths of those written: the file has no lengths, so vectors with the same entries as one sequence give the same file, and a read cuts that sequence at the lengths of its targets. (3) Different sparse cells give different files. (4) With nothing left to read, primitive and vector cells keep their values, but a sparse cell keeps only its number of items: the items become whatever the new memory holds. If the file ends inside the items, those complete in the file are right and the stream fails. (5) A negative number of items ends the process.", "quantifier": "every list of cells, every entry type with an object representation, every bytes behind them in the file, every content of the cells read into and of new memory", "why_tests_cant": "A test writes and reads a few cells, usually into vectors of the right length; the statement covers every length, every position at which the file ends, and whatever the allocator returns.", "anchors": ["include/MMSP.utility.h: read, write 155-161", "include/MMSP.scalar.h: write, read 67-73", "include/MMSP.vector.cpp: write, read 119-128", "include/MMSP.sparse.cpp: write, read 163-179"]}
{"id": "C134", "title": "Point: what its operators compute, and for which points they are defined", "statement": "(1) p[i] has three places: a read gives what was last stored at the same place, and every index but 1 and 2 is the first coordinate. (2) == holds exactly for equal points; what + computes on int points without overflow, - takes back. (3) For an int point and a factor f >= 0, p *= f gives the products f*p converted to int if and only if no coordinate times the fraction of f reaches one; with |f| < 1 it gives the origin, and p /= f divides by zero, although p / f is defined (p / 0.5 is 2p). With whole divisors / and /= agree. (4) An int times a floating-point point is the exact product if and only if the products are whole. (5) distance_function of int points is defined if and only if the squared differences add up to less than 2^31; it is then the Euclidean distance and a metric. Points in a cube of side 26754 are always safe, the corners of one of side 26755 are not.", "quantifier": "every point, index, factor and divisor", "why_tests_cant": "point_test.cpp prints a few results for floating-point coordinates; which factors give different results and where int overflow begins are statements about all factors and points.", "anchors": ["algorithms/topology/point.hpp: class Point 6-55, operators 57-85, distance_function 95-98, operator== 101-103"]}
{"id": "C135", "title": "mmsp2topo: mean and span of the centres printed", "statement": "For the grains that are not excluded, with centres inside the grid, mmsp2topo prints on every axis (1) the mean of the centres (not a number if there is none); (2) as lower end of the span the smallest whole part of a centre, or 1000 if that is smaller; (3) as upper end the greatest whole part of a centre if and only if that is 0, or the first grain lies at 1000 or beyond, or a grain other than the first has it too. (4) With centres below 1000 whose whole parts get smaller from grain to grain, for example with one grain, the upper end printed is 0.", "quantifier": "every list of grains, excluded or not, and every centres in the grid", "why_tests_cant": "The upper end is wrong only when the first grain in the order of the numbers lies farthest; a test with other data does not notice.", "anchors": ["utility/mmsp2topo.cpp: 257-276"]}
{"id": "C136", "title": "Convex splitting: an accepted step is close to the solution, simple energy", "statement": "(1) On a closed serial grid of N nodes, N times the sum of the squares of any field is at most N times P times the sum of its squared gradients plus the square of its sum, where P is N times the squared number of steps across the grid (plus one) times the largest squared spacing. (2) For any energy whose implicit part is q c^3 + m c with q, m >= 0 and any state, if the sum R of the squared residuals of the two equations of a step satisfies 8 q R P <= K, the sum over all nodes of the squared differences between its compositions and those of the solution is at most a constant times R; the constant is made of K, q, m, P, the spacings and the largest composition of the state. (3) So with the simple energy (VANILLA), if the solver of update returns, what it returns is that close to the only solution of the step, with R at most (2 N tolerance)^2 times the squared norm of the right-hand sides. (4) A uniform state is accepted after one iteration, unchanged.", "quantifier": "every closed serial grid, every number of dimensions and spacing, every time step, initial state and iteration limit", "why_tests_cant": "The solution of the equations is not available to a test, and near composition 0 the implicit part of this energy gives no control; only the gradient term and the conserved mass do.", "anchors": ["examples/phase_transitions/cahn-hilliard/convex_splitting/cahn-hilliard.cpp: update 276-461, VANILLA 60-87"]}
{"id": "C137", "title": "MTRand: which seeds give which numbers, seeds from the clock, normal deviates", "statement": "(1) Two generators seeded with numbers deliver the same first 624 numbers if and only if the lower 32 bits of the seeds agree; then they agree forever. (2) Without /dev/urandom, two generators constructed without a seed at the same time and clock value deliver different numbers within the first 624 unless the number of such generators between them is a multiple of 2^32; the static counter advances by one for each of them and not otherwise. (3) The guarantee in the comment of hash that seeds from the clock change does not hold across times: two consecutive generators, made 74 seconds apart, can deliver the same numbers forever. (4) However it is seeded, a generator constructed without a seed has no undefined behaviour and one of any 624 consecutive numbers is not zero. (5) randNorm uses the first pair of numbers whose point lies in the open unit disc; no point is at the origin; the argument of the square root is not negative; the deviates of the two coordinates lie on the circle of squared radius -2 log r; no value is farther than 9.35 standard deviations from the mean. (6) For seeds_from_prng of an MPI build at a time below 2^32: two processes draw from the same stream if and only if the time divided by their rank plus one, rounded down, is the same; so no two ranks i < j with j (j+1) <= time do; at time 2^33 ranks 0 and 1 do.", "quantifier": "every pair of seeds, every state of the object before, every content of /dev/urandom, every time, clock value and counter; every mean and standard deviation, after any number of draws", "why_tests_cant": "There are 2^64 pairs of seeds, and that streams differ is a statement about all of them; the collision of clock seeds was found by solving for it.", "anchors": ["algorithms/MersenneTwister.h: hash 142-165, seed() 242-263, randNorm 343-357, seed(uint32) 200-205, reload 184-198, randInt 284-298", "algorithms/tessellate.hpp: seeds_from_prng 500-526; algorithms/generators.cpp: 462-476"]}
{"id": "C138", "title": "MTRand: the numbers repeat from the first one on; which bounded draws return", "statement": "(1) For every seed there is p with 0 < p <= 2^19937 - 1 such that the numbers of the generator from number p on are its numbers from the start: there is no initial part that never comes back. (2) The same for every seed array that is not empty. (3) For every seed and every bound n, either every call of randInt(n) returns, after any number of earlier draws, a number that is at most n, or no call ever returns; the former as soon as one number of the stream, however early or late, is accepted.", "quantifier": "every seed, array, bound, number of draws and content of the object before seeding", "why_tests_cant": "The period is far beyond what can be run, and that a call made arbitrarily late returns cannot be tested at all.", "anchors": ["algorithms/MersenneTwister.h: reload 184-198, seed 200-240, randInt 284-298, randInt(n) 300-317"]}
{"id": "C139", "title": "MTRand: which streams of numbers a seed array can lead to", "statement": "Take any 624 words below 2^32 as the initial array of a generator. (1) If the highest bit of the first word is set there is a seed array of 624 words, each below 2^32, with which seed(array) makes a generator deliver the same numbers, however many are drawn. (2) If it is clear, every seed array of any length leads to numbers that differ within the first 624. So seed(array) reaches one half of the initial states, not all of them as its comment says; in particular the numbers of seed(s) can be had by an array if and only if the lower 32 bits of s are at least 2^31.", "quantifier": "every initial array, seed, seed array, number of draws and content of the object before seeding", "why_tests_cant": "There are 2^19937 initial states; which of them can be reached is not a matter of samples.", "anchors": ["algorithms/MersenneTwister.h: seed(array) 207-240 (comment 210-213), reload 184-198, seed(number) 200-205, randInt 284-298"]}
{"id": "C140", "title": "MTRand: which seed arrays lead to the same numbers", "statement": "(1) Two different seed arrays of the same length, of 1 to 622 words below 2^32, lead to different numbers, within the first 624. (2) Arrays of different length can lead to the same numbers: an array of up to 312 words, and the array followed by itself with its length taken from each word modulo 2^32, lead to the same numbers for ever; so {1} and {1, 0}. (3) For every stream that an array leads to at all there are exactly 2^32 arrays of 624 words, each below 2^32, that lead to it; an array of 624 words whose first 624 numbers are those of the stream is one of them. (4) There are two different arrays of 623 words, each below 2^32, that lead to the same numbers for ever.", "quantifier": "every array as named, every number of draws and content of the object before seeding", "why_tests_cant": "There are 2^19904 arrays of the length 622 alone, and that two streams are equal for ever cannot be seen from a part of them.", "anchors": ["algorithms/MersenneTwister.h: seed(array) 207-240, reload 184-198, randInt 284-298"]}
