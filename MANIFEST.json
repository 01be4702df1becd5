{
 "claims": [
  {
   "property": "C01",
   "status": "proved",
   "theorems": [
    "MMSP.checkBoundary_inside",
    "MMSP.checkBoundary_below",
    "MMSP.checkBoundary_above",
    "MMSP.checkBoundary_mpi",
    "MMSP.contract_unique",
    "MMSP.checkBoundary_idem"
   ],
   "note": ""
  },
  {
   "property": "C02",
   "status": "proved",
   "theorems": [
    "MMSP.checkBoundary_onAxis_iff",
    "MMSP.checkBoundary_mpi_ghost",
    "MMSP.periodic_escape",
    "MMSP.mirror_escape"
   ],
   "note": "The single wrap is a limit of the code; the theorems give the exact set of coordinates that escape."
  },
  {
   "property": "C03",
   "status": "proved",
   "theorems": [
    "MMSP.Shape.position_isNode",
    "MMSP.Shape.position_surj",
    "MMSP.Shape.position_inj",
    "MMSP.Shape.position_rowMajor",
    "MMSP.Shape.atSub_eq_atVec",
    "MMSP.Shape.atNode_eq_atVec"
   ],
   "note": ""
  },
  {
   "property": "C04",
   "status": "proved",
   "theorems": [
    "MMSP.Shape.atVec_in_bounds",
    "MMSP.Shape.atVec_inj",
    "MMSP.Shape.rawOffset_surj",
    "MMSP.Shape.serial_access_in_bounds",
    "MMSP.Shape.mpi_access_in_bounds"
   ],
   "note": "Integers are unbounded in this model; overflow of int is separate."
  },
  {
   "property": "C05",
   "status": "proved",
   "theorems": [
    "MMSP.Decomp.partition",
    "MMSP.Decomp.local_in_global",
    "MMSP.Decomp.ordered",
    "MMSP.Decomp.balanced",
    "MMSP.Decomp.nonempty_iff"
   ],
   "note": ""
  },
  {
   "property": "C06",
   "status": "proved",
   "theorems": [
    "MMSP.Decomp.combo_in_bounds",
    "MMSP.Decomp.choose_procGrid",
    "MMSP.Decomp.choose_minimal",
    "MMSP.Decomp.choose_first"
   ],
   "note": ""
  },
  {
   "property": "C07",
   "status": "proved",
   "theorems": [
    "MMSP.Decomp.pos_bijective",
    "MMSP.Decomp.below_spec",
    "MMSP.Decomp.above_spec",
    "MMSP.Decomp.above_below",
    "MMSP.Decomp.below_above",
    "MMSP.Decomp.above_adjacent",
    "MMSP.Decomp.below_adjacent"
   ],
   "note": ""
  },
  {
   "property": "C08",
   "status": "proved",
   "theorems": [
    "MMSP.Decomp.parallel_iff_internal",
    "MMSP.Decomp.parallel_fails_when_overdecomposed",
    "MMSP.Decomp.localShape_wf"
   ],
   "note": "Holds when no axis is cut into more pieces than it has nodes; the other case is refuted by parallel_fails_when_overdecomposed."
  },
  {
   "property": "C09",
   "status": "proved",
   "theorems": [
    "MMSP.Ghost.ghostswap_correct",
    "MMSP.Ghost.owner_exists",
    "MMSP.Ghost.ghostswap_keeps_own"
   ],
   "note": "Rounds in lock step; every other schedule is reduced to this one by C11."
  },
  {
   "property": "C10",
   "status": "proved",
   "theorems": [
    "MMSP.Ghost.ghostswap_thin_fails"
   ],
   "note": "Concrete counterexample to C09 without the width requirement."
  },
  {
   "property": "C11",
   "status": "proved",
   "theorems": [
    "MMSP.Ghost.partners_match",
    "MMSP.Ghost.regions_match",
    "MMSP.Ghost.ghostswap_schedules",
    "MMSP.Ghost.ghostswap_no_confusion",
    "MMSP.Ghost.ghostswap_scheduled_correct",
    "MMSP.Ghost.complete_run_exists"
   ],
   "note": "MPI is modelled as a message-passing machine (Rounds.lean) with arbitrary delivery order and buffered or rendezvous sends."
  },
  {
   "property": "C12",
   "status": "proved",
   "theorems": [
    "MMSP.Ghost.parityTable_eq",
    "MMSP.Ghost.sub_ghostswap_correct",
    "MMSP.Ghost.sub_regions_match",
    "MMSP.Ghost.sub_scheduled_correct",
    "MMSP.Ghost.sublattices_partition",
    "MMSP.Ghost.sub_odd_fails",
    "MMSP.Ghost.sub_wide_fails"
   ],
   "note": "Holds for one ghost layer and even global side lengths; sub_odd_fails and sub_wide_fails show both are needed."
  },
  {
   "property": "C13",
   "status": "proved",
   "theorems": [
    "MMSP.primCell_roundTrips",
    "MMSP.vectorCell_roundTrips",
    "MMSP.sparseCell_roundTrips",
    "MMSP.vectorCell_truncated",
    "MMSP.vectorCell_negative"
   ],
   "note": ""
  },
  {
   "property": "C14",
   "status": "proved",
   "theorems": [
    "MMSP.region_pack",
    "MMSP.region_roundTrip"
   ],
   "note": ""
  },
  {
   "property": "C15",
   "status": "proved",
   "theorems": [
    "MMSP.FileIO.readBlock_spec",
    "MMSP.FileIO.read_dataSection",
    "MMSP.FileIO.restart",
    "MMSP.FileIO.writers_run",
    "MMSP.FileIO.serial_run",
    "MMSP.FileIO.output_input"
   ],
   "note": "zlib is a parameter assumed to invert its own output and to respect the size bound write_buffer reserves; Shrinks excludes the collision of C16. The ghost exchange at the end of input is C09-C12. Boundary codes outside the enumeration are not represented."
  },
  {
   "property": "C16",
   "status": "proved",
   "theorems": [
    "MMSP.FileIO.equal_size_misread"
   ],
   "note": "For every compressor output of equal length and different content; cell types whose every byte string is a value."
  },
  {
   "property": "C17",
   "status": "proved",
   "theorems": [
    "MMSP.FileIO.header_roundTrip",
    "MMSP.FileIO.checkType_iff",
    "MMSP.FileIO.scalar_file_rejected",
    "MMSP.FileIO.no_colon_throws",
    "MMSP.FileIO.wrong_type_rejected",
    "MMSP.FileIO.wrong_dimension_rejected",
    "MMSP.FileIO.output_input"
   ],
   "note": "Text conversion of double is a parameter with a round6 law."
  },
  {
   "property": "C18",
   "status": "proved",
   "theorems": [
    "MMSP.FileIO.standard_output",
    "MMSP.FileIO.offsets_contiguous",
    "MMSP.FileIO.offsets_disjoint",
    "MMSP.FileIO.standard_output_bytes",
    "MMSP.FileIO.rank0_size_unchecked",
    "MMSP.FileIO.later_size_checked"
   ],
   "note": "Any order of all single-byte writes of all ranks."
  },
  {
   "property": "C19",
   "status": "proved",
   "theorems": [
    "MMSP.FileIO.Aggregated.Job.aggregated_iff",
    "MMSP.FileIO.Aggregated.Job.aggregated_output",
    "MMSP.FileIO.Aggregated.Job.aggregated_eq_standard",
    "MMSP.FileIO.Aggregated.Job.aggregated_single",
    "MMSP.FileIO.Aggregated.Job.boundary_fails",
    "MMSP.FileIO.Aggregated.Job.rank0_cut_fails",
    "MMSP.FileIO.Aggregated.Job.wide_rank_fails",
    "MMSP.FileIO.Aggregated.Job.boundary_aborts",
    "MMSP.FileIO.Aggregated.Job.heavy_rank0_overflows",
    "MMSP.FileIO.Aggregated.Job.wide_rank_example"
   ],
   "note": "Plan, messages and buffers of all ranks are modelled; messages between two ranks match by source and tag as in MPI. Uninitialised requests and uninitialised or overrun buffers count as undefined behaviour. Block counts fit unsigned int."
  },
  {
   "property": "C20",
   "status": "proved",
   "theorems": [
    "MMSP.Sparse.history_correct",
    "MMSP.Sparse.read_correct",
    "MMSP.Sparse.enumerate_correct",
    "MMSP.Heap.sparse_grow_correct",
    "MMSP.Sparse.enumerate_returns"
   ],
   "note": "Contents in Sparse.lean; the storage steps of set are covered by sparse_grow_correct."
  },
  {
   "property": "C21",
   "status": "proved",
   "theorems": [
    "MMSP.Sparse.add_correct",
    "MMSP.Sparse.addEq_correct",
    "MMSP.Sparse.sub_correct",
    "MMSP.Sparse.subEq_correct",
    "MMSP.Sparse.smul_correct",
    "MMSP.Sparse.mulEq_correct",
    "MMSP.Sparse.max_correct",
    "MMSP.Sparse.min_correct",
    "MMSP.Sparse.eq_correct",
    "MMSP.Sparse.addEqSelf_correct",
    "MMSP.Sparse.subEqSelf_correct"
   ],
   "note": "Only 0+a=a, a+0=a, a-0=a and a*0=0 are used of the element arithmetic, so rounding does not matter (except the sign of a floating zero)."
  },
  {
   "property": "C22",
   "status": "proved",
   "theorems": [
    "MMSP.Sparse.grainId_correct",
    "MMSP.Sparse.grainId_none",
    "MMSP.Sparse.grainId_sentinel",
    "MMSP.Sparse.getMagPhi_correct"
   ],
   "note": "getMagPhi in exact arithmetic with an arbitrary sqrt. The assertion in grain_id fails for index -1; for other negative indices the unsigned conversion is modelled but not described by the theorem."
  },
  {
   "property": "C23",
   "status": "partial",
   "theorems": [
    "MMSP.Heap.assign_correct",
    "MMSP.Heap.copy_correct",
    "MMSP.Heap.resize_correct",
    "MMSP.Heap.swap_correct",
    "MMSP.Heap.set_correct",
    "MMSP.Heap.eq_correct",
    "MMSP.Heap.copyCtor_correct",
    "MMSP.Heap.destroy_correct",
    "MMSP.Heap.mulEq_correct",
    "MMSP.Heap.append_correct_partial",
    "MMSP.Heap.appendVec_correct_partial",
    "MMSP.Heap.history_correct",
    "MMSP.Heap.resize_leaks",
    "MMSP.Heap.new_correct",
    "MMSP.Heap.index_correct"
   ],
   "note": "Everything except append holds outright. append reads behind its temporary (C25), so its clause is proved only for machines where such a read gives unspecified bytes instead of stopping the program. resize_leaks: growing a vector that was shrunk to 0 loses its empty block."
  },
  {
   "property": "C24",
   "status": "proved",
   "theorems": [
    "MMSP.Heap.self_assign_ub",
    "MMSP.Heap.self_copy_ub",
    "MMSP.Heap.self_assign_partial"
   ],
   "note": "The wanted behaviour is false; the theorems show undefined behaviour for every non-empty cell, and that empty cells survive. One model covers vector and sparse, whose assignment and copy have the same storage steps."
  },
  {
   "property": "C25",
   "status": "partial",
   "theorems": [
    "MMSP.Heap.append_overreads",
    "MMSP.Heap.appendVec_overreads",
    "MMSP.Heap.append_correct_partial",
    "MMSP.Heap.appendVec_correct_partial",
    "MMSP.Heap.append_own_element",
    "MMSP.Heap.sparse_grow_correct"
   ],
   "note": "The claim is false: append_overreads shows every append reads past its temporary. The _partial theorems give the contents when that read is harmless. sparse::set has no such over-read."
  },
  {
   "property": "C26",
   "status": "proved",
   "theorems": [
    "MMSP.Global.global_correct",
    "MMSP.Global.unknown_operation",
    "MMSP.Global.combine_named",
    "MMSP.Comm.result_unique",
    "MMSP.Comm.deadlock_free"
   ],
   "note": "Any delivery order, any mixture of buffered and waiting sends (Proc.lean). Byte counts must fit an int."
  },
  {
   "property": "C27",
   "status": "proved",
   "theorems": [
    "MMSP.GridCopy.swap_correct",
    "MMSP.GridCopy.swap_contents",
    "MMSP.GridCopy.swap_swap",
    "MMSP.GridCopy.swap_wf",
    "MMSP.GridCopy.copy_correct",
    "MMSP.GridCopy.copy_prim",
    "MMSP.GridCopy.copy_vector",
    "MMSP.GridCopy.copy_sparse_overflow",
    "MMSP.GridCopy.copy_self",
    "MMSP.GridCopy.freeCopy_overwrites_second"
   ],
   "note": "Self-copy loses the data; grids of sparse cells overflow as soon as one cell is non-empty."
  },
  {
   "property": "C28",
   "status": "proved",
   "theorems": [
    "MMSP.Stencil.laplacian_returns_iff",
    "MMSP.Stencil.laplacian_eq",
    "MMSP.Stencil.divergence_eq",
    "MMSP.Stencil.gradient_eq'",
    "MMSP.Stencil.laplacian_linear",
    "MMSP.Stencil.divergence_linear",
    "MMSP.Stencil.gradient_linear",
    "MMSP.Stencil.constant_field",
    "MMSP.Stencil.laplacian_exact",
    "MMSP.Stencil.gradient_exact",
    "MMSP.Stencil.divergence_exact",
    "MMSP.Stencil.laplacianField_agrees",
    "MMSP.Stencil.laplacianVec_correct",
    "MMSP.Stencil.gradientField_agrees",
    "MMSP.Stencil.laplacianSparse_correct",
    "MMSP.Stencil.inReach_serial",
    "MMSP.Stencil.inReach_mpi",
    "MMSP.Stencil.laplacian_not_exact_quartic",
    "MMSP.Stencil.gradient_not_exact_cubic",
    "MMSP.Stencil.laplacianNode_eq"
   ],
   "note": "Exact arithmetic (any field), as the property says nothing about rounding. Exactness is proved up to degree three per variable for the Laplacian and two for the gradient, and shown to stop there."
  },
  {
   "property": "C29",
   "status": "proved",
   "theorems": [
    "MMSP.Conserve.laplacian_conserves",
    "MMSP.Conserve.step_conserves",
    "MMSP.Conserve.update_conserves",
    "MMSP.Conserve.cahnHilliard_conserves",
    "MMSP.Conserve.modelB_conserves",
    "MMSP.Conserve.mirror_not_conserving",
    "MMSP.Conserve.mixed_not_conserving"
   ],
   "note": "Exact arithmetic. Axes may mix: each is periodic on both sides or clamped (Neumann or Dirichlet flag) on both sides."
  },
  {
   "property": "C30",
   "status": "proved",
   "theorems": [
    "MMSP.Driver.fileName_eq",
    "MMSP.Driver.fileName_length",
    "MMSP.Driver.fileName_order",
    "MMSP.Driver.fileName_ok",
    "MMSP.Driver.parse_plain",
    "MMSP.Driver.parse_one_dot",
    "MMSP.Driver.parse_checkpoint",
    "MMSP.Driver.count_spec",
    "MMSP.Driver.timeLoop_spec",
    "MMSP.Driver.exact_steps",
    "MMSP.Driver.overshoots",
    "MMSP.Driver.zero_increment_hangs",
    "MMSP.Driver.params_steps",
    "MMSP.Driver.params_steps_increment",
    "MMSP.Driver.params_out_steps",
    "MMSP.Driver.params_out_steps_increment",
    "MMSP.Driver.params_two_names",
    "MMSP.Driver.params_rejects",
    "MMSP.Driver.main_spec",
    "MMSP.Driver.main_rejects",
    "MMSP.Driver.header_recognised",
    "MMSP.Driver.restart_continues",
    "MMSP.Driver.plain_restart_forgets",
    "MMSP.Driver.dotted_restart_forgets",
    "MMSP.Driver.main_generates",
    "MMSP.Driver.main_help",
    "MMSP.Driver.example_rejects",
    "MMSP.Driver.main_no_arguments"
   ],
   "note": "Names are byte lists; the grid constructor, update and output are parameters. Numbers are unbounded naturals (overflow of int counts outside the model). The originally stated 'exactly the requested number of steps' and 'restarting continues numbering' are false in general; overshoots, zero_increment_hangs, params_two_names, plain_restart_forgets and dotted_restart_forgets are the counterexamples, the other theorems say when they hold."
  },
  {
   "property": "C31",
   "status": "proved",
   "theorems": [
    "MMSP.PriorityQueue.top_min",
    "MMSP.PriorityQueue.push_spec",
    "MMSP.PriorityQueue.pop_spec",
    "MMSP.PriorityQueue.holds_iff_back",
    "MMSP.PriorityQueue.step_spec",
    "MMSP.PriorityQueue.history",
    "MMSP.PriorityQueue.empty_good",
    "MMSP.PriorityQueue.misuse_aborts"
   ],
   "note": "Elements are handles (pointers) with a key each; keys of stored elements change only together with an update."
  },
  {
   "property": "C32",
   "status": "proved",
   "theorems": [
    "MMSP.PriorityQueue.fresh_of_not_top",
    "MMSP.PriorityQueue.update_spec",
    "MMSP.PriorityQueue.step_spec",
    "MMSP.PriorityQueue.history",
    "MMSP.PriorityQueue.stale_index",
    "MMSP.PriorityQueue.stale_index_misorders"
   ],
   "note": "The unrestricted claim (every handle knows its position) is false of the code: stale_index and stale_index_misorders are concrete runs."
  },
  {
   "property": "C33",
   "status": "proved",
   "theorems": [
    "MMSP.Tessellate.nodeIdentity_spec",
    "MMSP.Tessellate.exactVoronoi_nearest",
    "MMSP.Tessellate.tessellateMpi_spec",
    "MMSP.Tessellate.tessellation_independent",
    "MMSP.Tessellate.nearest_unique",
    "MMSP.Tessellate.image_eq",
    "MMSP.Tessellate.exact_not_periodic"
   ],
   "note": "Squared distances below 2^31. exact_not_periodic is a concrete periodic line on which the assigned seed is not the nearest one periodically."
  },
  {
   "property": "C34",
   "status": "proved",
   "theorems": [
    "MMSP.Tessellate.scan_hangs_here",
    "MMSP.Tessellate.scan_hangs",
    "MMSP.Tessellate.propagate_hangs",
    "MMSP.Tessellate.propagate_returns",
    "MMSP.Tessellate.approximate_never_finishes",
    "MMSP.Tessellate.approximate_no_seeds"
   ],
   "note": "The hoped-for termination is false; propagate_hangs and approximate_never_finishes are the refutations (a run may also stop with undefined behaviour or a failed assertion, never normally). LeadsBack excludes only a one-layer axis with a mirror condition below."
  },
  {
   "property": "C35",
   "status": "proved",
   "theorems": [
    "MMSP.Tessellate.toBuffer_spec",
    "MMSP.Tessellate.fromBuffer_spec",
    "MMSP.Tessellate.seeds_roundTrip",
    "MMSP.Tessellate.allgatherv_spec",
    "MMSP.Tessellate.exchange_spec",
    "MMSP.Tessellate.fileSeeds_count",
    "MMSP.Tessellate.fileSeeds_same"
   ],
   "note": "MPI_Allgather / MPI_Allgatherv are modelled by their standard meaning."
  },
  {
   "property": "C36",
   "status": "proved",
   "theorems": [
    "MMSP.MTRand.mt19937",
    "MMSP.MTRand.mt19937_array",
    "MMSP.MTRand.temper_lt",
    "MMSP.MTRand.temper_inj",
    "MMSP.MTRand.draws_lt",
    "MMSP.MTRand.rand_range",
    "MMSP.MTRand.randExc_range",
    "MMSP.MTRand.randDblExc_range",
    "MMSP.MTRand.rand53_range",
    "MMSP.MTRand.rand53_surj",
    "MMSP.MTRand.used_eq",
    "MMSP.MTRand.randIntTo_le",
    "MMSP.MTRand.randIntTo_spec",
    "MMSP.MTRand.randIntTo_uniform",
    "MMSP.MTRand.never_stuck",
    "MMSP.MTRand.never_stuck_array",
    "MMSP.MTRand.seedArray_stream",
    "MMSP.MTRand.seedArray_empty",
    "MMSP.MTRand.inUse_seed",
    "MMSP.MTRand.inUse_draws",
    "MMSP.MTRand.copy_stream",
    "MMSP.MTRand.save_load",
    "MMSP.MTRand.text_round_trip",
    "MMSP.MTRand.text_glued"
   ],
   "note": "uint32 is a 64-bit unsigned long, as on LP64. rand() is stated for every monotone rounding fixing 0 and 1. Seeding from the clock or /dev/urandom and randNorm are in C137. Termination of the bounded draw is not claimed, only what it returns."
  },
  {
   "property": "C37",
   "status": "proved",
   "theorems": [
    "MMSP.WrongEndian.swapEndian_eq",
    "MMSP.WrongEndian.swapEndian_involutive",
    "MMSP.WrongEndian.swapBuffer_involutive",
    "MMSP.WrongEndian.native_block_fails"
   ],
   "note": "Reading beyond the end of a stream is modelled as undefined behaviour: the buffer keeps unspecified content."
  },
  {
   "property": "C38",
   "status": "proved",
   "theorems": [
    "MMSP.WrongEndian.scalar_data",
    "MMSP.WrongEndian.vector_data",
    "MMSP.WrongEndian.sparse_data",
    "MMSP.WrongEndian.dispatch",
    "MMSP.WrongEndian.block_converts",
    "MMSP.WrongEndian.file_converts",
    "MMSP.WrongEndian.foreign_scalar",
    "MMSP.WrongEndian.foreign_vector",
    "MMSP.WrongEndian.foreign_sparse",
    "MMSP.WrongEndian.one_byte_refused",
    "MMSP.WrongEndian.dispatch_longDouble",
    "MMSP.WrongEndian.longDouble_halves",
    "MMSP.WrongEndian.vector_256_wrong",
    "MMSP.WrongEndian.sparse_padding_wrong"
   ],
   "note": "Assumes a lawful zlib, that a compressed block is not accidentally as long as the raw one (see C16) and that spacings survive reading as float and printing (the program prints six digits). Threads are represented by the order in which they finish."
  },
  {
   "property": "C39",
   "status": "proved",
   "theorems": [
    "MMSP.Convert.mc2pf_spec",
    "MMSP.Convert.mc2pf_negative",
    "MMSP.Convert.pf2mc_spec",
    "MMSP.Convert.mc_pf_mc",
    "MMSP.Convert.mc2spf_spec",
    "MMSP.Convert.spf2mc_spec",
    "MMSP.Convert.mc_spf_mc",
    "MMSP.Convert.pf2spf_spec",
    "MMSP.Convert.spf2pf_spec",
    "MMSP.Convert.spf2pf_3d",
    "MMSP.Convert.spf_pf_spf",
    "MMSP.Convert.spf_pf_mc",
    "MMSP.Convert.tie_differs"
   ],
   "note": "Values form a linear order (no NaN). File input and output around the conversion are C16/C17. Serial build, as in utility/Makefile."
  },
  {
   "property": "C40",
   "status": "proved",
   "theorems": [
    "MMSP.GrainSize.countNodes_spec",
    "MMSP.GrainSize.table_total",
    "MMSP.GrainSize.vectorId_spec",
    "MMSP.GrainSize.sparseId_spec",
    "MMSP.GrainSize.int_grains",
    "MMSP.GrainSize.vector_grains",
    "MMSP.GrainSize.sparse_grains",
    "MMSP.GrainSize.rankFold_table",
    "MMSP.GrainSize.grainsize_global"
   ],
   "note": "The header targets an older grid class and does not compile with today's headers; the bodies are modelled with today's grid. Parallel statement for fewer than 2^28 nodes in all (the summed table must fit an int-sized message)."
  },
  {
   "property": "C41",
   "status": "partial",
   "theorems": [
    "MMSP.SparsePF.nearby_spec",
    "MMSP.SparsePF.forces2_spec",
    "MMSP.SparsePF.rates_spec",
    "MMSP.SparsePF.rates_total",
    "MMSP.SparsePF.forces3_spec",
    "MMSP.SparsePF.free_total",
    "MMSP.SparsePF.project_simplex",
    "MMSP.SparsePF.project_none",
    "MMSP.SparsePF.pairNode_simplex_partial",
    "MMSP.SparsePF.evolveNode_simplex_partial",
    "MMSP.SparsePF.anisoNode_simplex_partial",
    "MMSP.SparsePF.aniso_first_step_partial",
    "MMSP.SparsePF.pairNode_keeps",
    "MMSP.SparsePF.stale_total",
    "MMSP.SparsePF.not_simplex",
    "MMSP.SparsePF.node_keeps",
    "MMSP.SparsePF.evolve_not_simplex"
   ],
   "note": "The claim as stated is false of the code (not_simplex, evolve_not_simplex, stale_total, node_keeps); proved for an empty destination cell. Exact arithmetic."
  },
  {
   "property": "C42",
   "status": "partial",
   "theorems": [
    "MMSP.Image.mmsp2png_partial",
    "MMSP.Image.fieldToPng_spec",
    "MMSP.Image.visited_eq",
    "MMSP.Image.frame_isNode",
    "MMSP.Image.shade_spec",
    "MMSP.Image.shade_mono",
    "MMSP.Image.shade_ends",
    "MMSP.Image.scalarContour_marks",
    "MMSP.Image.vectorValue_spec",
    "MMSP.Image.sparse_consistent",
    "MMSP.Image.default_slice",
    "MMSP.Image.slice_outside_blank",
    "MMSP.Image.slice_without_level",
    "MMSP.Image.default_slice_blank",
    "MMSP.Image.slice_plane_aborts",
    "MMSP.Image.zoom_misses_minimum",
    "MMSP.Image.zoom_constant",
    "MMSP.Image.zoom_undefined",
    "MMSP.Image.exclude_one_undefined",
    "MMSP.Image.sparse_exclude_one",
    "MMSP.Image.contours_ignored",
    "MMSP.Image.contour_zero_ignored",
    "MMSP.Image.contour_spec",
    "MMSP.Image.contour_drawn"
   ],
   "note": "The picture is complete and right when the limits passed are a proper interval (the default 0, 1) and the slice, in three dimensions, is inside (mmsp2png_partial). The full claim is false of the code: zoom_undefined, zoom_constant, slice_without_level, default_slice_blank, slice_plane_aborts, exclude_one_undefined. Real arithmetic instead of double; sqrt arbitrary."
  },
  {
   "property": "C43",
   "status": "proved",
   "theorems": [
    "MMSP.Spin.boxFold_eq",
    "MMSP.Spin.ising_states",
    "MMSP.Spin.ising_downhill",
    "MMSP.Spin.ising_rank_states",
    "MMSP.Spin.boxReach_mpi",
    "MMSP.Spin.potts_states",
    "MMSP.Spin.heisenberg_states"
   ],
   "note": "Serial runs on periodic grids; single flips on any rank of a parallel run (ising_rank_states)."
  },
  {
   "property": "C44",
   "status": "partial",
   "theorems": [
    "MMSP.SparsePF.isoNode_spec",
    "MMSP.SparsePF.isoNode_fresh_partial",
    "MMSP.SparsePF.isoNode_bulk",
    "MMSP.SparsePF.isoValue_eq",
    "MMSP.SparsePF.sweep_spec",
    "MMSP.SparsePF.isoRun_total",
    "MMSP.SparsePF.isoRun_keeps",
    "MMSP.SparsePF.resurrected"
   ],
   "note": "The claim as stated is false of the code (isoRun_keeps, resurrected); proved for an empty destination cell. Exact arithmetic, serial runs."
  },
  {
   "property": "C45",
   "status": "proved",
   "theorems": [
    "MMSP.Anisotropy.stable",
    "MMSP.Anisotropy.lookup_spec",
    "MMSP.Anisotropy.energy_spec",
    "MMSP.Anisotropy.lookup_comm",
    "MMSP.Anisotropy.zero_recomputed"
   ],
   "note": "The computation is an arbitrary function; stable needs it never to be 0, which zero_recomputed shows to be necessary unless it is symmetric (lookup_spec)."
  },
  {
   "property": "C46",
   "status": "proved",
   "theorems": [
    "MMSP.Topology.checkNeighbors_spec",
    "MMSP.Topology.not_own_neighbor",
    "MMSP.Topology.own_neighbor",
    "MMSP.Topology.volume_spec",
    "MMSP.Topology.collect3_spec",
    "MMSP.Topology.makePvector_spec",
    "MMSP.Topology.inferVertices_spec",
    "MMSP.Topology.pbar_spec",
    "MMSP.Topology.plateaunic_iff",
    "MMSP.Topology.topology_spec",
    "MMSP.Topology.collect2_spec",
    "MMSP.Topology.three_faces_hidden",
    "MMSP.Topology.row_aborts",
    "MMSP.Topology.square_undefined",
    "MMSP.Topology.estimateCentroid_keeps",
    "MMSP.Topology.centroid_outside"
   ],
   "note": "Both directions are exact: topology_spec (3D) says when the assertion fails and what comes out otherwise, collect2_spec (2D) when the loop is undefined and what is collected otherwise. Defects shown with witnesses: row_aborts (three grains in a row), square_undefined (four nodes), own_neighbor (ids from 65536), three_faces_hidden (such grains are never printed), centroid_outside. Exact arithmetic instead of float; serial; the text output, averages and 2D analysis after the loop are not modelled."
  },
  {
   "property": "C47",
   "status": "proved",
   "theorems": [
    "MMSP.GridCopy.assign_shares"
   ],
   "note": "Negative result: the sharing and the double release are proved. That the memberwise operator is chosen is a C++ language rule, in the trusted base."
  },
  {
   "property": "C48",
   "status": "proved",
   "theorems": [
    "MMSP.GridCopy.copyCtor_correct"
   ],
   "note": ""
  },
  {
   "property": "C49",
   "status": "proved",
   "theorems": [
    "MMSP.Stencil.divergenceVec_eq",
    "MMSP.Stencil.divergenceVec_overruns",
    "MMSP.Stencil.divergenceVec_not_divergence"
   ],
   "note": ""
  },
  {
   "property": "C50",
   "status": "proved",
   "theorems": [
    "MMSP.ParallelRun.parallel_eq_serial",
    "MMSP.ParallelRun.allenCahn_parallel",
    "MMSP.ParallelRun.cahnHilliard_parallel",
    "MMSP.ParallelRun.missing_ghostswap_differs"
   ],
   "note": "Ranks run statement by statement; freedom of the schedule inside ghostswap is C10. Arithmetic is a parameter without laws."
  },
  {
   "property": "C51",
   "status": "partial",
   "theorems": [
    "MMSP.SparsePF.zener_elsewhere",
    "MMSP.SparsePF.zener_origin",
    "MMSP.SparsePF.particle_moves"
   ],
   "note": "The claim is false of the code: particle_moves is a concrete run, zener_elsewhere and zener_origin say what the code does instead."
  },
  {
   "property": "C52",
   "status": "partial",
   "theorems": [
    "MMSP.Spin.energySum_spec",
    "MMSP.Spin.energySum_same",
    "MMSP.Spin.ising_energy",
    "MMSP.Spin.ising_descends",
    "MMSP.Spin.ising_leaves_ground_state",
    "MMSP.Spin.potts_energy_partial",
    "MMSP.Spin.potts_descends_partial",
    "MMSP.Spin.potts_line",
    "MMSP.Spin.potts_plane",
    "MMSP.Spin.potts_plane_raises",
    "MMSP.Spin.heisenberg_energy",
    "MMSP.Spin.heisenberg_leaves_ground_state",
    "MMSP.Spin.interaction_update"
   ],
   "note": "The claim is false of the code except for Potts in three dimensions (potts_energy_partial); the other theorems say what is computed instead."
  },
  {
   "property": "C53",
   "status": "proved",
   "theorems": [
    "MMSP.SpinZener.energyChange_spec",
    "MMSP.SpinZener.near_spec",
    "MMSP.SpinZener.zenerFlip_cases",
    "MMSP.SpinZener.zener_states",
    "MMSP.SpinZener.zener_descends",
    "MMSP.SpinZener.table_energy_ok"
   ],
   "note": "Serial runs on periodic grids. table_energy_ok discharges the hypotheses on the energy for the anisotropy table of C45."
  },
  {
   "property": "C54",
   "status": "proved",
   "theorems": [
    "MMSP.MonteCarlo.site_colour",
    "MMSP.MonteCarlo.node_drawn",
    "MMSP.MonteCarlo.exists_colour",
    "MMSP.MonteCarlo.colour_apart",
    "MMSP.MonteCarlo.local_serial",
    "MMSP.MonteCarlo.local_mpi",
    "MMSP.MonteCarlo.neighbors_spec",
    "MMSP.MonteCarlo.energyChange_eq",
    "MMSP.MonteCarlo.attempt_cases",
    "MMSP.MonteCarlo.pass_spec",
    "MMSP.MonteCarlo.energy_spec",
    "MMSP.MonteCarlo.pass_descends",
    "MMSP.MonteCarlo.update_states",
    "MMSP.MonteCarlo.update_descends"
   ],
   "note": "Energy and whole-run statements for serial runs (C100 for parallel ones); the statements on one pass hold on every rank. Different ranks write different nodes and read only nodes that no rank changes during the pass (colour_apart, pass_spec)."
  },
  {
   "property": "C55",
   "status": "partial",
   "theorems": [
    "MMSP.MonteCarlo.pass_ends_iff",
    "MMSP.MonteCarlo.pass_hangs",
    "MMSP.MonteCarlo.thin_sublattice",
    "MMSP.MonteCarlo.update_hangs",
    "MMSP.MonteCarlo.pass_can_end_partial",
    "MMSP.MonteCarlo.update_line"
   ],
   "note": "The claim is false of the code (update_hangs); pass_can_end_partial is what remains of it."
  },
  {
   "property": "C56",
   "status": "proved",
   "theorems": [
    "MMSP.Multigrid.smooth_ok",
    "MMSP.Multigrid.sweep_fixed_iff",
    "MMSP.Multigrid.smooth_fixed",
    "MMSP.Multigrid.smooth_other",
    "MMSP.Multigrid.smooth_error",
    "MMSP.Multigrid.defect_spec",
    "MMSP.Multigrid.coarsen_spec",
    "MMSP.Multigrid.coarsen_line",
    "MMSP.Multigrid.fullWeight_eq",
    "MMSP.Multigrid.refine_linear",
    "MMSP.Multigrid.refine_cubic",
    "MMSP.Multigrid.refine_line",
    "MMSP.Multigrid.mg_spec",
    "MMSP.Multigrid.mg_fixed",
    "MMSP.Multigrid.mg_never",
    "MMSP.Multigrid.update_spec",
    "MMSP.Multigrid.update_hangs",
    "MMSP.Multigrid.update_never",
    "MMSP.Multigrid.ten_never"
   ],
   "note": "Exact arithmetic; serial; non-termination is: no amount of fuel suffices."
  },
  {
   "property": "C57",
   "status": "proved",
   "theorems": [
    "MMSP.ConvexSplit.vanilla_split",
    "MMSP.ConvexSplit.parametric_split",
    "MMSP.ConvexSplit.vanilla_derivative",
    "MMSP.ConvexSplit.parametric_derivative",
    "MMSP.ConvexSplit.vanilla_splits",
    "MMSP.ConvexSplit.parametric_splits",
    "MMSP.ConvexSplit.benchmark_not_split",
    "MMSP.ConvexSplit.benchmark_minima",
    "MMSP.ConvexSplit.fieldLaplacian_ok",
    "MMSP.ConvexSplit.fringe_ok",
    "MMSP.ConvexSplit.node_ok",
    "MMSP.ConvexSplit.passIn_ok",
    "MMSP.ConvexSplit.iteration_fixed_iff",
    "MMSP.ConvexSplit.pass_any_order",
    "MMSP.ConvexSplit.mass_defect",
    "MMSP.ConvexSplit.scheme_mass",
    "MMSP.ConvexSplit.energy_defect",
    "MMSP.ConvexSplit.scheme_energy",
    "MMSP.ConvexSplit.vanilla_energy",
    "MMSP.ConvexSplit.vanilla_solvable",
    "MMSP.ConvexSplit.parametric_solvable",
    "MMSP.ConvexSplit.residual_ok",
    "MMSP.ConvexSplit.solve_spec",
    "MMSP.ConvexSplit.update_spec",
    "MMSP.ConvexSplit.last_iteration_wasted",
    "MMSP.ConvexSplit.passed_bound",
    "MMSP.ConvexSplit.passed_mass",
    "MMSP.ConvexSplit.odd_period_races",
    "MMSP.ConvexSplit.negative_twice",
    "MMSP.ConvexSplit.vanilla_nonlinear",
    "MMSP.ConvexSplit.parametric_nonlinear"
   ],
   "note": "Exact arithmetic instead of double; sqrt is a parameter, assumed to be a square root where the bound needs it; threads are modelled as an arbitrary order of whole node updates. Not modelled: initialisation with noise, the MPI reductions of the residual, output, the ghost exchange between the colours."
  },
  {
   "property": "C58",
   "status": "proved",
   "theorems": [
    "MMSP.Overflow.sizes_exact",
    "MMSP.Overflow.choose_exact",
    "MMSP.Overflow.axisLimits_exact",
    "MMSP.Overflow.setup_exact",
    "MMSP.Overflow.fits_of_sizes",
    "MMSP.Overflow.position_ok",
    "MMSP.Overflow.atNode_ok",
    "MMSP.Overflow.checkBoundary_ok",
    "MMSP.Overflow.atVec_ok",
    "MMSP.Overflow.neighbours_ok",
    "MMSP.Overflow.digits_ok",
    "MMSP.Overflow.many_ranks_overflow",
    "MMSP.Overflow.many_ranks_overflow_2D",
    "MMSP.Overflow.ranks_1290",
    "MMSP.Overflow.slab_overflow",
    "MMSP.Overflow.slab_wraps",
    "MMSP.Overflow.square_limit",
    "MMSP.Overflow.mirror_overflow"
   ],
   "note": "int has 32 bits; any overflow is undefined behaviour. The sum and products are checked operation by operation in the order of the code. Not covered: the int arithmetic of buffer sizes."
  },
  {
   "property": "C59",
   "status": "proved",
   "theorems": [
    "MMSP.VecMath.componentwise",
    "MMSP.VecMath.zipEq_eq",
    "MMSP.VecMath.add_spec",
    "MMSP.VecMath.sub_spec",
    "MMSP.VecMath.self_spec",
    "MMSP.VecMath.add_laws",
    "MMSP.VecMath.add_not_comm",
    "MMSP.VecMath.min_max_spec",
    "MMSP.VecMath.smul_spec",
    "MMSP.VecMath.mulEq_spec",
    "MMSP.VecMath.smul_half",
    "MMSP.VecMath.dot_spec",
    "MMSP.VecMath.dot_comm",
    "MMSP.VecMath.dot_add",
    "MMSP.VecMath.grid_spec",
    "MMSP.VecMath.grid_vec_spec",
    "MMSP.VecMath.grid_add_sub",
    "MMSP.VecMath.grid_smaller_source",
    "MMSP.VecMath.grid_other_shape",
    "MMSP.VecMath.fill_spec",
    "MMSP.VecMath.fill_vector"
   ],
   "note": "Storage and aliasing are the subject of other claims (C26, C47, C48). With NDEBUG the assertion that stops the program is undefined behaviour instead."
  },
  {
   "property": "C60",
   "status": "proved",
   "theorems": [
    "MMSP.Tool.open_known",
    "MMSP.Tool.open_long_double",
    "MMSP.Tool.open_sound",
    "MMSP.Tool.pvd_unsound",
    "MMSP.Tool.outName_self_iff",
    "MMSP.Tool.outName_spec",
    "MMSP.Tool.outName_numeric",
    "MMSP.Tool.stemName_collides",
    "MMSP.Tool.tsv_keeps",
    "MMSP.Tool.tsv_converts",
    "MMSP.Tool.tsv_destroys_input",
    "MMSP.Tool.entries_eq",
    "MMSP.Tool.explicit_output",
    "MMSP.Tool.no_output",
    "MMSP.Tool.missing_file",
    "MMSP.Tool.usage_order",
    "MMSP.Tool.option_alone",
    "MMSP.Tool.last_block_only"
   ],
   "note": "Command line options other than the output name are not modelled for png and xyz (see C42); a file can be opened exactly if it exists."
  },
  {
   "property": "C61",
   "status": "proved",
   "theorems": [
    "MMSP.Tsv.convert_table",
    "MMSP.Tsv.lookup",
    "MMSP.Tsv.scalar_sparse_values",
    "MMSP.Tsv.vector_values",
    "MMSP.Tsv.char_breaks_table"
   ],
   "note": "The texts of numbers are parameters."
  },
  {
   "property": "C62",
   "status": "proved",
   "theorems": [
    "MMSP.Vtk.picture",
    "MMSP.Vtk.raster_bij",
    "MMSP.Vtk.too_long",
    "MMSP.Vtk.argmax_spec",
    "MMSP.Vtk.scalar_spec",
    "MMSP.Vtk.vector_spec",
    "MMSP.Vtk.sparse_spec",
    "MMSP.Vtk.max_not_magnitude"
   ],
   "note": "The library vtkImageData is modelled by an array with extent; the writer of the library is trusted; conversions to float and sqrt are parameters. VTK 5 is not covered (there 2D vector fields are allocated as float and written as double)."
  },
  {
   "property": "C63",
   "status": "proved",
   "theorems": [
    "MMSP.DensePF.aniso_simplex",
    "MMSP.DensePF.marked_spec",
    "MMSP.DensePF.forces3_spec",
    "MMSP.DensePF.rates_spec",
    "MMSP.DensePF.rates_total",
    "MMSP.DensePF.rates_unmarked",
    "MMSP.DensePF.pairValues_simplex",
    "MMSP.DensePF.aniso_bulk",
    "MMSP.DensePF.aniso_local"
   ],
   "note": "Exact arithmetic in an ordered field; serial build; energy, mobility and the functions of them are parameters."
  },
  {
   "property": "C64",
   "status": "partial",
   "theorems": [
    "MMSP.DensePF.iso_pinned",
    "MMSP.DensePF.pinned_rate",
    "MMSP.DensePF.aniso_pinned_partial",
    "MMSP.DensePF.pinned_dissolves"
   ],
   "note": "True of the isotropic example (iso_pinned). False of the anisotropic one: the rate of field 0 is zero, but after other values were clamped at 0 or 1 the projection onto the simplex rescales field 0 too (witness pinned_dissolves: a particle between two grains shrinks in one step). Proved instead: it is unchanged wherever no value is clamped."
  },
  {
   "property": "C65",
   "status": "proved",
   "theorems": [
    "MMSP.DensePF.iso_bounded",
    "MMSP.DensePF.isoValue_descends",
    "MMSP.DensePF.iso_grain",
    "MMSP.DensePF.iso_unstable"
   ],
   "note": "Exact arithmetic in an ordered field; serial build."
  },
  {
   "property": "C66",
   "status": "proved",
   "theorems": [
    "MMSP.Relax.modelA_bounded",
    "MMSP.Relax.allenCahn_bounded",
    "MMSP.Relax.acRun_eq",
    "MMSP.Relax.allenCahn_energy",
    "MMSP.Relax.allenCahn_stationary",
    "MMSP.Relax.allenCahn_large_step"
   ],
   "note": "Exact arithmetic in an ordered field; serial build; the noise is a parameter."
  },
  {
   "property": "C67",
   "status": "proved",
   "theorems": [
    "MMSP.Relax.first_correct",
    "MMSP.Relax.first_falling",
    "MMSP.Relax.first_example",
    "MMSP.Relax.second_correct",
    "MMSP.Relax.second_is_first",
    "MMSP.Relax.heat1_fixed_iff",
    "MMSP.Relax.heat_between",
    "MMSP.Relax.heat_conserves",
    "MMSP.Relax.heat2_unstable",
    "MMSP.Relax.heat2_closed"
   ],
   "note": "Exact arithmetic; serial build."
  },
  {
   "property": "C68",
   "status": "proved",
   "theorems": [
    "MMSP.Ostwald.step_eq",
    "MMSP.Ostwald.ostwald_conserves",
    "MMSP.Ostwald.gradient_energy",
    "MMSP.Ostwald.resurrected",
    "MMSP.Ostwald.no_energy",
    "MMSP.Ostwald.repaired_energy",
    "MMSP.Ostwald.resurrected_example",
    "MMSP.Ostwald.wells",
    "MMSP.Ostwald.at_rest",
    "MMSP.Ostwald.second_order_parameter"
   ],
   "note": "Exact arithmetic in a field; serial build."
  },
  {
   "property": "C69",
   "status": "proved",
   "theorems": [
    "MMSP.Solid.step_eq",
    "MMSP.Solid.heat_balance",
    "MMSP.Solid.heat_lost",
    "MMSP.Solid.pure_phase",
    "MMSP.Solid.phase_bounded",
    "MMSP.Solid.growth_iff",
    "MMSP.Solid.melting_symmetric",
    "MMSP.Solid.mild_isotropic",
    "MMSP.Solid.real_mild",
    "MMSP.Solid.example_bounded",
    "MMSP.Solid.cfl_suffices",
    "MMSP.Solid.reduce_terminates",
    "MMSP.Solid.split_differs",
    "MMSP.Solid.lopsided"
   ],
   "note": "Exact arithmetic; atan2, cos and sin are the real functions; serial build."
  },
  {
   "property": "C70",
   "status": "proved",
   "theorems": [
    "MMSP.Noise.gaussian_hangs_iff",
    "MMSP.Noise.gaussian_pair",
    "MMSP.Noise.centre_never_hit",
    "MMSP.Noise.series_bounded",
    "MMSP.Noise.reach_glibc",
    "MMSP.Noise.modelA_glibc",
    "MMSP.Noise.stuck_hangs",
    "MMSP.Noise.spinodal_is_modelB",
    "MMSP.Noise.spinodal_conserves"
   ],
   "note": "Real arithmetic; rand() is a stream of integers in [0,RAND_MAX]."
  },
  {
   "property": "C71",
   "status": "proved",
   "theorems": [
    "MMSP.Generate.isoDense_spec",
    "MMSP.Generate.anisoDense_spec",
    "MMSP.Generate.zenerDense_spec",
    "MMSP.Generate.zenerSparse_spec",
    "MMSP.Generate.zenerMC_spec",
    "MMSP.Generate.zener2_unset",
    "MMSP.Generate.zener3_unset",
    "MMSP.Generate.zener1_by_chance",
    "MMSP.Generate.inside_disk",
    "MMSP.Generate.inside_line",
    "MMSP.Generate.insideSparse_line",
    "MMSP.Generate.dense_sparse_differ",
    "MMSP.Generate.anisoDense_run",
    "MMSP.Generate.isoDense_run",
    "MMSP.Generate.allenCahn_run",
    "MMSP.Generate.spin_spec",
    "MMSP.Generate.choice_spec",
    "MMSP.Generate.ostwaldNode_spec",
    "MMSP.Generate.seedNode_spec"
   ],
   "note": "Exact arithmetic; serial build; an unwritten entry is a separate value none."
  },
  {
   "property": "C72",
   "status": "proved",
   "theorems": [
    "MMSP.Sessions.output_denotes",
    "MMSP.Sessions.shape_eq",
    "MMSP.Sessions.parallel_step",
    "MMSP.Sessions.serial_step",
    "MMSP.Sessions.session_step",
    "MMSP.Sessions.chain_eq_serial",
    "MMSP.Sessions.raw_sound",
    "MMSP.Sessions.allenCahn_restarts"
   ],
   "note": "Composition of the models of input, ghostswap, update programs and output. Arithmetic is any fixed deterministic operation. Standard (not BGQ) output path; MPI world must be well-formed (blocks not thinner than the ghosts)."
  },
  {
   "property": "C73",
   "status": "proved",
   "theorems": [
    "MMSP.Voxel.readVox_voxText",
    "MMSP.Voxel.grainSet_card",
    "MMSP.Voxel.mc2vox_text",
    "MMSP.Voxel.voxel_roundTrip",
    "MMSP.Voxel.short_file",
    "MMSP.Voxel.mc2vox_destroys",
    "MMSP.Voxel.default_name",
    "MMSP.Voxel.mc2vox_other_types"
   ],
   "note": "Serial build of the tools. Library text conversion of spacings is the parameter Decimal; zlib is the parameter Zlib."
  },
  {
   "property": "C74",
   "status": "proved",
   "theorems": [
    "MMSP.Voxel.mmsp2z_header",
    "MMSP.Voxel.mmsp2z_old",
    "MMSP.Voxel.mmsp2z_small",
    "MMSP.Voxel.size_of_codes",
    "MMSP.Voxel.mmsp2z_output"
   ],
   "note": "zlib is the parameter Zlib with inverse and size bound; text conversion of spacings is the parameter Decimal."
  },
  {
   "property": "C75",
   "status": "proved",
   "theorems": [
    "MMSP.SparsePF.pairNode_full",
    "MMSP.SparsePF.anisoStep_full",
    "MMSP.SparsePF.anisoRun_full"
   ],
   "note": "Arithmetic in an ordered field; serial build. The tables of energies and mobilities are parameters; fewer than 10^8 fields."
  },
  {
   "property": "C76",
   "status": "partial",
   "theorems": [
    "MMSP.SparsePF.pinned_rate",
    "MMSP.SparsePF.particle_value",
    "MMSP.SparsePF.particle_kept_partial",
    "MMSP.SparsePF.particle_shrinks",
    "MMSP.SparsePF.particle_dissolves"
   ],
   "note": "The property is false of the code. Proved: the rate of field 0 is zero, and its value is kept at nodes where no field is cut off; where a field is cut off at zero the particle strictly shrinks, with a concrete run of the example (particle_dissolves)."
  },
  {
   "property": "C77",
   "status": "proved",
   "theorems": [
    "MMSP.Generators.distances_end",
    "MMSP.Generators.distances_nearest",
    "MMSP.Generators.approximateVoronoi_nearest",
    "MMSP.Generators.not_euclidean",
    "MMSP.Generators.not_periodic"
   ],
   "note": "Serial build. Squared differences and sums are assumed below 2^31 (hypothesis). not_euclidean and not_periodic are concrete witnesses."
  },
  {
   "property": "C78",
   "status": "proved",
   "theorems": [
    "MMSP.Generators.distances_ok",
    "MMSP.Generators.approximateVoronoi_ok",
    "MMSP.Generators.distances_row_ub"
   ],
   "note": "Serial build. Reading a stale or uninitialised heap position is undefined behaviour in the model."
  },
  {
   "property": "C79",
   "status": "proved",
   "theorems": [
    "MMSP.Generators.seedswap_spec",
    "MMSP.Generators.tessellateMpi_number",
    "MMSP.Generators.number_differs",
    "MMSP.Generators.grain_split"
   ],
   "note": "MPI_Allgather and MPI_Allgatherv are trusted to deliver the buffers in rank order."
  },
  {
   "property": "C80",
   "status": "proved",
   "theorems": [
    "MMSP.Generators.poissonSeeds_eq",
    "MMSP.Generators.poissonSeeds_inBox",
    "MMSP.Generators.random_end",
    "MMSP.Generators.seedsFromFile_spec",
    "MMSP.Generators.seedsFromFile_empty",
    "MMSP.Generators.written_read",
    "MMSP.Generators.lineSeed_eq",
    "MMSP.Generators.lineSeed_blank",
    "MMSP.Generators.linesSeeds_eq",
    "MMSP.Generators.whole_iff",
    "MMSP.Generators.six_lines"
   ],
   "note": "Real arithmetic is exact; files are lists of numbers, words that are not numbers are not modelled. The generator is a parameter with values in 0..n for randInt(n)."
  },
  {
   "property": "C81",
   "status": "proved",
   "theorems": [
    "MMSP.Generators.honeycomb_mem",
    "MMSP.Generators.honeycomb_serial",
    "MMSP.Generators.honeycomb_bad",
    "MMSP.Generators.honeycomb_again",
    "MMSP.Generators.honeycomb_astray"
   ],
   "note": "seeds[id] before the exchange; spacing not negative."
  },
  {
   "property": "C82",
   "status": "proved",
   "theorems": [
    "MMSP.ConvertFile.mc2pf_file",
    "MMSP.ConvertFile.mc2spf_file",
    "MMSP.ConvertFile.pf2mc_file",
    "MMSP.ConvertFile.pf2spf_file",
    "MMSP.ConvertFile.spf2mc_file",
    "MMSP.ConvertFile.spf2pf_file",
    "MMSP.ConvertFile.mc_pf_mc_files",
    "MMSP.ConvertFile.mc_spf_mc_files",
    "MMSP.ConvertFile.mc2pf_file_negative",
    "MMSP.ConvertFile.spf2pf_file_3d",
    "MMSP.ConvertFile.convert_safe",
    "MMSP.ConvertFile.other_types",
    "MMSP.ConvertFile.convert_refuses",
    "MMSP.ConvertFile.front_refuses",
    "MMSP.ConvertFile.front_cut",
    "MMSP.ConvertFile.front_header",
    "MMSP.ConvertFile.programs_refuse",
    "MMSP.ConvertFile.mc2spf_one_field",
    "MMSP.ConvertFile.default_names",
    "MMSP.ConvertFile.missing_input",
    "MMSP.ConvertFile.other_dimensions"
   ],
   "note": "The value type is any linear order with an encoding of fixed width (no NaN, one zero). zlib is assumed to behave, and not to return a different block of the same length (C41). PF2MC and PF2sPF are for files whose vectors all have as many elements as the header says."
  },
  {
   "property": "C83",
   "status": "proved",
   "theorems": [
    "MMSP.Options.parse_render",
    "MMSP.Options.commandLine_render",
    "MMSP.Options.contol_drops",
    "MMSP.Options.contol_ub",
    "MMSP.Options.contol_throws",
    "MMSP.Options.contour_ub",
    "MMSP.Options.zoom_ub",
    "MMSP.Options.field_cut",
    "MMSP.Options.field_wrong",
    "MMSP.Options.decimal_first",
    "MMSP.Options.unknown_is_data"
   ],
   "note": "atof is a parameter; decimal_first uses the exact value of a decimal number in place of it."
  },
  {
   "property": "C84",
   "status": "proved",
   "theorems": [
    "MMSP.Cloud.scalars_spec",
    "MMSP.Cloud.scalars_normals",
    "MMSP.Cloud.vectors_spec",
    "MMSP.Cloud.sparses_spec",
    "MMSP.Cloud.vectors_options",
    "MMSP.Cloud.places_distinct",
    "MMSP.Cloud.near_none",
    "MMSP.Cloud.near_zero",
    "MMSP.Cloud.near_scale",
    "MMSP.Cloud.near_mag_negative",
    "MMSP.Cloud.near_self",
    "MMSP.Cloud.vectors_no_field",
    "MMSP.Cloud.header_short"
   ],
   "note": "Values are elements of an ordered field in place of floating-point numbers; formatting of the numbers is left out."
  },
  {
   "property": "C85",
   "status": "proved",
   "theorems": [
    "MMSP.Progress.loop_bullets",
    "MMSP.Progress.twenty_points",
    "MMSP.Progress.one_step",
    "MMSP.Progress.many_steps",
    "MMSP.Progress.clock_spec"
   ],
   "note": "Output is a list of events; date and time are left out."
  },
  {
   "property": "C86",
   "status": "proved",
   "theorems": [
    "MMSP.Topology.mmsp2topo3",
    "MMSP.Topology.mmsp2topo2",
    "MMSP.Topology.table3",
    "MMSP.Topology.table2",
    "MMSP.Topology.average_spec",
    "MMSP.Topology.names_spec",
    "MMSP.Topology.span_spec",
    "MMSP.Topology.span_decreasing",
    "MMSP.Topology.accepts_iff"
   ],
   "note": "Volumes are elements of an ordered field in place of float; the conversion of a centre to int is a parameter, undefined for 0/0. The hypothesis that no face has a single edge, and on a plane that grains are met before they touch, are those outside which C46 shows the program to abort or to be undefined."
  },
  {
   "property": "C87",
   "status": "proved",
   "theorems": [
    "MMSP.ParallelRun.isoDense_parallel",
    "MMSP.ParallelRun.anisoDense_parallel",
    "MMSP.ParallelRun.sparse_parallel",
    "MMSP.ParallelRun.ostwald_parallel",
    "MMSP.ParallelRun.solid_parallel",
    "MMSP.ParallelRun.isoDense_model",
    "MMSP.ParallelRun.anisoDense_model",
    "MMSP.ParallelRun.isoSparse_model",
    "MMSP.ParallelRun.anisoSparse_model",
    "MMSP.ParallelRun.ostwald_model",
    "MMSP.ParallelRun.isoNode_local",
    "MMSP.ParallelRun.anisoNode_local",
    "MMSP.ParallelRun.solid_flux_serial",
    "MMSP.ParallelRun.solid_value_serial",
    "MMSP.ParallelRun.dense_buffers",
    "MMSP.ParallelRun.mixed_buffers",
    "MMSP.ParallelRun.sparse_buffers",
    "MMSP.ParallelRun.zener_parallel_differs"
   ],
   "note": "The parallel theorems take the right-hand side as a function without laws, so they hold for float arithmetic. Ranks run statement by statement (freedom of the schedule inside ghostswap is C10). Fields of a sparse grid are assumed to come from a set small enough for an int to count. For solidification the link to the model of C69 is made node by node."
  },
  {
   "property": "C88",
   "status": "proved",
   "theorems": [
    "MMSP.ParallelRun.restart",
    "MMSP.ParallelRun.call_ends",
    "MMSP.ParallelRun.calls_exist",
    "MMSP.ParallelRun.allenCahn_restart",
    "MMSP.ParallelRun.cahnHilliard_restart",
    "MMSP.ParallelRun.isoDense_restart",
    "MMSP.ParallelRun.anisoDense_restart",
    "MMSP.ParallelRun.ostwald_restart",
    "MMSP.ParallelRun.sparse_split_differs"
   ],
   "note": "A call of either build finds the field on the nodes of oldGrid only; everything else is arbitrary (of the right length). C72 is the same with files between the calls, for Allen-Cahn. The right-hand sides are functions without laws, so the theorems hold for float arithmetic."
  },
  {
   "property": "C89",
   "status": "proved",
   "theorems": [
    "MMSP.Board.convex_parallel",
    "MMSP.Board.update_agree",
    "MMSP.Board.residual_agree",
    "MMSP.Board.size_agree",
    "MMSP.Board.odd_period_differs",
    "MMSP.Board.negative_differs"
   ],
   "note": "The serial program is the model of C57. update_agree holds for any right-hand side that reads oldGrid at the node and newGrid at the node and its nearest neighbours, without arithmetic laws for the fields; only the sum of residuals is taken in a commutative monoid (MPI_Allreduce and the loop add in different orders, so with floats the residuals may differ in the last bit). All ranks execute a statement before the next begins, as in C50; C98 removes this assumption."
  },
  {
   "property": "C90",
   "status": "proved",
   "theorems": [
    "MMSP.Async.runs_end",
    "MMSP.Async.runs_go_on",
    "MMSP.Async.runs_agree",
    "MMSP.Async.runs_exist",
    "MMSP.Async.disciplined_ends",
    "MMSP.Async.allenCahn_ends",
    "MMSP.Async.cahnHilliard_ends",
    "MMSP.Async.isoDense_ends",
    "MMSP.Async.anisoDense_ends",
    "MMSP.Async.sparse_ends",
    "MMSP.Async.ostwald_ends",
    "MMSP.Async.solid_ends"
   ],
   "note": "Extends C11 (one ghostswap under every schedule) and removes the lock-step assumption of C50 and C87. Assumed of MPI: messages are neither lost nor altered, a receive takes a message with its source, destination and tag. A failed rank goes on with its failure as its value. The runs are those of the statements; reductions are added in C98; files are not included."
  },
  {
   "property": "C91",
   "status": "proved",
   "theorems": [
    "MMSP.Multigrid.smooth_converges",
    "MMSP.Multigrid.rate_equal",
    "MMSP.Multigrid.coarsest_error",
    "MMSP.Multigrid.solvable",
    "MMSP.Multigrid.smooth_limit"
   ],
   "note": "Exact arithmetic in an ordered field (Archimedean for the limit). Extends the claim of C56 that the error never grows. The rate is a bound, not the best one."
  },
  {
   "property": "C92",
   "status": "proved",
   "theorems": [
    "MMSP.Multigrid.line_cycle",
    "MMSP.Multigrid.line_update",
    "MMSP.Multigrid.line_far",
    "MMSP.Multigrid.line_small",
    "MMSP.Multigrid.solution_large",
    "MMSP.Multigrid.line_ratio",
    "MMSP.Multigrid.line_wrong"
   ],
   "note": "Exact arithmetic. The claim is about what the code computes; as a solver it is wrong in one dimension."
  },
  {
   "property": "C93",
   "status": "proved",
   "theorems": [
    "MMSP.Multigrid.updateOn_serial",
    "MMSP.Multigrid.upper_update",
    "MMSP.Multigrid.line_ranks"
   ],
   "note": "Ranks that are upper only along a later axis read wrong elements inside their memory; that case is not part of the claim."
  },
  {
   "property": "C94",
   "status": "proved",
   "theorems": [
    "MMSP.SpinSampling.ising_total",
    "MMSP.SpinSampling.ising_balance",
    "MMSP.SpinSampling.ising_gibbs",
    "MMSP.SpinSampling.ising_samples",
    "MMSP.SpinSampling.potts_total",
    "MMSP.SpinSampling.potts_gibbs",
    "MMSP.SpinSampling.potts_samples",
    "MMSP.SpinSampling.spinShare_eq",
    "MMSP.SpinSampling.spinShare_differs",
    "MMSP.SpinSampling.heisenberg_no_energy",
    "MMSP.Sampling.accepts_share"
   ],
   "note": "Assumes independent uniform results of rand(); exp and the division by RAND_MAX exact. Serial build: on several ranks sites are visited concurrently. rho and K depend on grid, temperature and RAND_MAX."
  },
  {
   "property": "C95",
   "status": "proved",
   "theorems": [
    "MMSP.Rounded.projectFl_range",
    "MMSP.Rounded.projectFl_sum",
    "MMSP.Rounded.rounded_run",
    "MMSP.Rounded.rounded_step",
    "MMSP.Rounded.diffusion_rounded",
    "MMSP.Rounded.constant_eq",
    "MMSP.Rounded.randFl_range",
    "MMSP.Rounded.randFl_ends",
    "MMSP.Rounded.randFl_mono",
    "MMSP.Rounded.randExcFl_eq",
    "MMSP.Rounded.randDblExcFl_eq",
    "MMSP.Rounded.rand53Fl_eq",
    "MMSP.Rounded.rand_bound",
    "MMSP.Rounded.randExc_bound",
    "MMSP.Rounded.randDblExc_bound",
    "MMSP.Rounded.shadeFl_spec",
    "MMSP.Rounded.shadeFl_ends",
    "MMSP.Rounded.shadeFl_mono"
   ],
   "note": "No overflow or underflow, no extended precision, no fused multiply-add: the exponent is unbounded in fl. Cells of type double (as in the examples): for float, 1.0/sum is rounded twice."
  },
  {
   "property": "C96",
   "status": "proved",
   "theorems": [
    "MMSP.Steady.first_steady",
    "MMSP.Steady.second_steady",
    "MMSP.Steady.first_steady_rounded",
    "MMSP.Steady.first_program",
    "MMSP.Steady.heat2_diverges",
    "MMSP.Steady.heat2_unbounded"
   ],
   "note": "Serial runs. Exact arithmetic except in first_steady_rounded and first_program, where the exponent is unbounded. The 2D statements are in exact arithmetic; 0.3 stands for 3/10."
  },
  {
   "property": "C97",
   "status": "proved",
   "theorems": [
    "MMSP.Sessions.bounded_size",
    "MMSP.Sessions.bounded_fits",
    "MMSP.Sessions.bounded_sound",
    "MMSP.Sessions.restarts",
    "MMSP.Sessions.isoDense_restarts",
    "MMSP.Sessions.anisoDense_restarts",
    "MMSP.Sessions.sparse_restarts"
   ],
   "note": "Without compression (with zlib use chain_eq_serial of C72, whose hypothesis excludes the collision of C16). Fields of sparse cells come from a set small enough for the blocks to fit. Ostwald ripening and solidification, which use grids of two cell types, are in C99."
  },
  {
   "property": "C98",
   "status": "proved",
   "theorems": [
    "MMSP.Collective.run_bounded",
    "MMSP.Collective.run_goes_on",
    "MMSP.Collective.run_ended",
    "MMSP.Collective.run_aborts",
    "MMSP.Collective.run_exists",
    "MMSP.Collective.update_follows",
    "MMSP.Collective.convex_every_schedule"
   ],
   "note": "Extends C90 by reductions and removes the lock-step assumption of C89. Follows states what lock-step execution (mpiRun of C50, sums over the ranks) does. Assumed of MPI_Allreduce: it returns after all ranks have called it, on every rank with the sum; sums are exact (commutative monoid)."
  },
  {
   "property": "C99",
   "status": "proved",
   "theorems": [
    "MMSP.Sessions.mixed_restarts",
    "MMSP.Sessions.ostwald_restarts",
    "MMSP.Sessions.solid_restarts"
   ],
   "note": "Without compression. Scalars are modelled as lists of one entry, with the buffer functions of scalars. Arithmetic is any fixed deterministic operation."
  },
  {
   "property": "C100",
   "status": "proved",
   "theorems": [
    "MMSP.MonteCarlo.ranks_serialise",
    "MMSP.MonteCarlo.ranks_return_iff",
    "MMSP.MonteCarlo.ranks_states",
    "MMSP.MonteCarlo.ranks_descend"
   ],
   "note": "Sides of even length and one ghost layer are what the sublattice exchange needs (C12, where the failures without them are proved). The ranks go together from barrier to barrier; that the exchange itself gives the same under every schedule is C12. The number of attempts of the serial program is the sum over the ranks, which is not the number that the serial program would compute for itself (num_grids_to_flip counts sites one past the upper end, C54)."
  },
  {
   "property": "C101",
   "status": "partial",
   "theorems": [
    "MMSP.SpinSchedule.returns_iff",
    "MMSP.SpinSchedule.returns_or_hangs",
    "MMSP.SpinSchedule.spin_returns_iff",
    "MMSP.SpinSchedule.ising_hangs",
    "MMSP.SpinSchedule.potts_hangs",
    "MMSP.SpinSchedule.heisenberg_hangs",
    "MMSP.SpinSchedule.zener_returns",
    "MMSP.SpinSchedule.ising_returns_partial",
    "MMSP.SpinSchedule.potts_returns_partial",
    "MMSP.SpinSchedule.heisenberg_returns_partial",
    "MMSP.SpinSchedule.isingAttempt_eq",
    "MMSP.SpinSchedule.pottsAttempt_eq",
    "MMSP.SpinSchedule.heisenbergAttempt_eq",
    "MMSP.Async.finished_calls",
    "MMSP.Async.all_end",
    "MMSP.Async.each_go_on"
   ],
   "note": "Claim false of the code; ising_hangs, potts_hangs, heisenberg_hangs are the witnesses, spin_returns_iff the exact condition. The missing part of the _partial theorems is the case of ranks with different numbers of nodes. int(sqrt(n)) is the integer square root (true of double for every int). A rank that has returned is taken to send no further ghost messages."
  },
  {
   "property": "C102",
   "status": "proved",
   "theorems": [
    "MMSP.SpinSchedule.ising_ends",
    "MMSP.SpinSchedule.potts_ends",
    "MMSP.SpinSchedule.heisenberg_ends",
    "MMSP.SpinSchedule.update_ends",
    "MMSP.Async.each_result",
    "MMSP.Async.eachRun_keeps"
   ],
   "note": "Attempts are those of Verif/Spin.lean (exact arithmetic, arbitrary acceptance rule), proved equal to the statements used here (isingAttempt_eq and the like of C101). Heisenberg: the drawn directions are assumed to be unit vectors."
  },
  {
   "property": "C103",
   "status": "proved",
   "theorems": [
    "MMSP.SpinSchedule.ising_not_serial",
    "MMSP.SpinSchedule.border_eq",
    "MMSP.SpinSchedule.ring_run"
   ],
   "note": "The ring of eight nodes is a concrete witness. Exact arithmetic."
  },
  {
   "property": "C104",
   "status": "proved",
   "theorems": [
    "MMSP.GenerateRanks.zener_spec",
    "MMSP.GenerateRanks.generate_denotes",
    "MMSP.GenerateRanks.serial_denotes",
    "MMSP.GenerateRanks.zener_file",
    "MMSP.GenerateRanks.monteCarlo_file",
    "MMSP.GenerateRanks.dense_file",
    "MMSP.GenerateRanks.sparse_file",
    "MMSP.GenerateRanks.particles_cut",
    "MMSP.GenerateRanks.monteCarlo_cut",
    "MMSP.GenerateRanks.placed_ge",
    "MMSP.GenerateRanks.placed_square"
   ],
   "note": "Periodic outer faces (the default, which the examples do not change). Finding: the parallel generate differs from the serial one (cut particles, number of particles per rank instead of per grid). Blocks must fit an int of MPI and, with zlib, must not be compressed to their own length (Writes). rand() of a rank is an arbitrary sequence. Exact numbers 0 and 1."
  },
  {
   "property": "C105",
   "status": "proved",
   "theorems": [
    "MMSP.GenerateRanks.started",
    "MMSP.GenerateRanks.iso_whole",
    "MMSP.GenerateRanks.aniso_whole",
    "MMSP.GenerateRanks.sparse_whole",
    "MMSP.GenerateRanks.isoSparse_whole",
    "MMSP.GenerateRanks.anisoSparse_whole"
   ],
   "note": "Sparse: the serial program is the sequence of update calls (each begins with an empty new grid). Right-hand sides are parameters, as in C97; lock-step ranks (removed by C90). Uncompressed files, blocks below 2^31-1 bytes."
  },
  {
   "property": "C106",
   "status": "proved",
   "theorems": [
    "MMSP.GenerateConvex.convex_ranks",
    "MMSP.GenerateConvex.convex_serial",
    "MMSP.GenerateConvex.convex_file",
    "MMSP.GenerateConvex.convex_same"
   ],
   "note": "Exact arithmetic in any field; f' and K are parameters. Grids of pairs (the two fields). Lock-step ranks around ghostswap."
  },
  {
   "property": "C107",
   "status": "proved",
   "theorems": [
    "MMSP.RoundConserve.step_drift",
    "MMSP.RoundConserve.update_drift",
    "MMSP.RoundConserve.cahnHilliard_drift",
    "MMSP.RoundConserve.shipped_drift",
    "MMSP.RoundConserve.shipped_loses",
    "MMSP.RoundConserve.serialRun_update",
    "MMSP.RoundConserve.ranks_drift"
   ],
   "note": "The model is that of C29 and C50, run on a type whose operations round (C95). No overflow, underflow, infinities, fused multiply-add or extended precision; pow(phi,3) is phi*phi*phi. For ranks the cells are sent by any buffer functions that round-trip."
  },
  {
   "property": "C108",
   "status": "proved",
   "theorems": [
    "MMSP.Symmetry.run_moves",
    "MMSP.Symmetry.shift_run",
    "MMSP.Symmetry.uniform_run",
    "MMSP.Symmetry.shift_ranks",
    "MMSP.Symmetry.allenCahn_shift",
    "MMSP.Symmetry.cahnHilliard_shift",
    "MMSP.Symmetry.isoDense_shift",
    "MMSP.Symmetry.anisoDense_shift",
    "MMSP.Symmetry.sparse_shift",
    "MMSP.Symmetry.ostwald_shift",
    "MMSP.Symmetry.solid_shift"
   ],
   "note": "The programs are those of C50. Sides must not be shorter than the stencil (longer on mirror axes). Other axes may have any boundary conditions, but the shift must not move along them. The arithmetic is arbitrary, so rounding is covered."
  },
  {
   "property": "C109",
   "status": "proved",
   "theorems": [
    "MMSP.Symmetry.allenCahn_moves",
    "MMSP.Symmetry.cahnHilliard_moves",
    "MMSP.Symmetry.allenCahn_sign",
    "MMSP.Symmetry.cahnHilliard_sign",
    "MMSP.Symmetry.rhs_odd",
    "MMSP.Symmetry.oddNumbers_ring",
    "MMSP.Symmetry.oddNumbers_num",
    "MMSP.Symmetry.allenCahn_turn",
    "MMSP.Symmetry.cahnHilliard_turn",
    "MMSP.Symmetry.symmetric_stays",
    "MMSP.Symmetry.plainSums_num",
    "MMSP.Symmetry.allenCahn_exchange",
    "MMSP.Symmetry.cahnHilliard_exchange",
    "MMSP.Symmetry.reflection_fails"
   ],
   "note": "The programs are those of C50. pow(phi,3) is phi*phi*phi; no overflow, underflow, fused multiply-add or extended precision. The field with which reflection fails has the values -2^53, 1/2, 2^53."
  },
  {
   "property": "C110",
   "status": "proved",
   "theorems": [
    "MMSP.Explicit.cahnHilliard_energy",
    "MMSP.Explicit.cahnHilliard_trapped",
    "MMSP.Explicit.cahnHilliard_rests",
    "MMSP.Explicit.cahnHilliard_stationary",
    "MMSP.Explicit.shipped_damped",
    "MMSP.Explicit.cahnHilliard_diverges",
    "MMSP.Explicit.ranks_energy"
   ],
   "note": "Exact arithmetic over an ordered field; rounding of the mass is in C107. The energy is that of C66. For (2) the bound on the initial energy does not grow with the number of nodes, so on large grids with strong noise only (1) applies."
  },
  {
   "property": "C111",
   "status": "proved",
   "theorems": [
    "MMSP.RoundConfine.timesThree_cube",
    "MMSP.RoundConfine.roundedCube_cube",
    "MMSP.RoundConfine.initial_within",
    "MMSP.RoundConfine.allenCahn_within",
    "MMSP.RoundConfine.allenCahn_pinned",
    "MMSP.RoundConfine.ranks_within",
    "MMSP.RoundConfine.ranks_pinned",
    "MMSP.RoundConfine.shipped_pinned",
    "MMSP.RoundConfine.shipped_within",
    "MMSP.RoundConfine.shipped_turns"
   ],
   "note": "Arithmetic is that of C107 (`Num p`: unbounded exponent, so no overflow; the claim itself shows that none can occur as all intermediate values are small; underflow is not modelled). The bounds speak about the nodes; ghosts are covered by C50."
  },
  {
   "property": "C112",
   "status": "proved",
   "theorems": [
    "MMSP.Compare.allenCahn_ordered",
    "MMSP.Compare.allenCahn_stable",
    "MMSP.Compare.allenCahn_well",
    "MMSP.Compare.large_step_disorders",
    "MMSP.Compare.allenCahn_distance",
    "MMSP.Compare.allenCahn_distance_one",
    "MMSP.Compare.shipped_distance",
    "MMSP.Compare.shipped_thousand",
    "MMSP.Compare.ranks_ordered",
    "MMSP.Compare.ranks_distance"
   ],
   "note": "Floating-point arithmetic and pow as in C111. In (4) the exact run has the rounded coefficients r, u, K and weights 1/dx^2, but may have another dt and M; with the shipped constants only dt = 0.01 is not exact."
  },
  {
   "property": "C113",
   "status": "proved",
   "theorems": [
    "MMSP.IeeeConfine.allenCahn_unit",
    "MMSP.IeeeConfine.ranks_unit",
    "MMSP.IeeeConfine.allenCahn_distance",
    "MMSP.IeeeConfine.shipped_pinned",
    "MMSP.IeeeConfine.shipped_unit",
    "MMSP.IeeeConfine.shipped_thousand",
    "MMSP.IeeeConfine.initial_unit",
    "MMSP.IeeeConfine.timesThree_cube",
    "MMSP.IeeeConfine.roundedCube_cube",
    "MMSP.IeeeConfine.huge_start_overflows",
    "MMSP.Ieee.bits_inj",
    "MMSP.Ieee.one_bytes"
   ],
   "note": "Round to nearest even, no extended precision or fused operations. Signed zero is not distinguished, all results that are not finite are one value. The accuracy of pow is an assumption (`Cube`), met by two products and by the rounded cube."
  },
  {
   "property": "C114",
   "status": "proved",
   "theorems": [
    "MMSP.IeeeWhole.fill_spec",
    "MMSP.IeeeWhole.begun",
    "MMSP.IeeeWhole.startValue_unit",
    "MMSP.IeeeWhole.first_file",
    "MMSP.IeeeWhole.every_file_unit",
    "MMSP.IeeeWhole.last_file_right"
   ],
   "note": "Arithmetic as in C113; MPI as in C50 and C72. Not compressed. The random sequences of the ranks are arbitrary, also equal. RAND_MAX below 2^31."
  },
  {
   "property": "C115",
   "status": "proved",
   "theorems": [
    "MMSP.Export.opened",
    "MMSP.Export.export_eq",
    "MMSP.Export.Same.tsv",
    "MMSP.Export.Same.vti",
    "MMSP.Export.Same.png",
    "MMSP.Export.Same.xyz",
    "MMSP.Export.Same.xyzVector",
    "MMSP.Export.Same.xyzSparse",
    "MMSP.Export.Same.map",
    "MMSP.Export.field_congr",
    "MMSP.Export.tsv_file",
    "MMSP.Export.vti_file",
    "MMSP.Export.png_file",
    "MMSP.Export.xyz_file",
    "MMSP.Export.xyz_vectors",
    "MMSP.Export.xyz_sparse",
    "MMSP.Export.sessions_shown",
    "MMSP.Export.unit_picture"
   ],
   "note": "The texts of numbers are parameters without tabs and newlines; pictures in exact arithmetic, without contour marks (those are C58); cells of type scalar<T> are written with another type line and not included; what a tool reads of the header for itself is what its grid object reads. Libraries that compress the PNG and VTK files as in C51 and C58."
  },
  {
   "property": "C116",
   "status": "proved",
   "theorems": [
    "MMSP.ConvexRestart.sitting_step",
    "MMSP.ConvexRestart.sittings",
    "MMSP.ConvexRestart.calls_states",
    "MMSP.ConvexRestart.chain_mass",
    "MMSP.ConvexRestart.calls_rest",
    "MMSP.ConvexRestart.whole",
    "MMSP.ConvexRestart.writeBuffer_nodes",
    "MMSP.ConvexRestart.nodes_denote",
    "MMSP.ConvexRestart.respace_good",
    "MMSP.ConvexRestart.spaced_eq"
   ],
   "note": "Exact arithmetic; a file format that can represent the values that occur (P: those that are written, bounded in size), and square roots that are not too small (UpperRoot). update starts each session with newGrid equal to oldGrid, so the division into calls matters and is the same in the serial program. Ranks proceed from collective to collective together; that this is no loss is C98."
  },
  {
   "property": "C117",
   "status": "proved",
   "theorems": [
    "MMSP.DensePF.iso_energy",
    "MMSP.DensePF.iso_stationary",
    "MMSP.DensePF.iso_spent",
    "MMSP.DensePF.iso_rests",
    "MMSP.DensePF.grainEnergy_ge",
    "MMSP.DensePF.grainEnergy_least",
    "MMSP.DensePF.iso_ranks",
    "MMSP.DensePF.shipped_mild",
    "MMSP.DensePF.iso_large_step"
   ],
   "note": "Exact arithmetic in an ordered field. The energy is the one whose derivative C65 identifies; for Zener pinning it includes the particle field, which does not move. Lock-step ranks (removed by C90)."
  },
  {
   "property": "C118",
   "status": "proved",
   "theorems": [
    "MMSP.IeeeDense.growth_frac",
    "MMSP.IeeeDense.zener_frac",
    "MMSP.IeeeDense.ranks_frac",
    "MMSP.IeeeDense.isoTerm_frac",
    "MMSP.IeeeDense.shipped_gentle",
    "MMSP.IeeeDense.shipped_frac",
    "MMSP.IeeeDense.interior_kept",
    "MMSP.IeeeDense.ranks_interior",
    "MMSP.IeeeDense.timesThree_cubed",
    "MMSP.IeeeDense.roundedCube_cubed",
    "MMSP.IeeeDense.exact_link",
    "MMSP.IeeeDense.large_step_leaves"
   ],
   "note": "Trusted: IEEE 754 binary arithmetic without fused multiply-add or extended precision; pow as stated (two products and the correctly rounded cube both qualify). The two zeros are one number. T is double; for vector<float> the program mixes formats, which is not modelled. Lock-step ranks (removed by C90)."
  },
  {
   "property": "C119",
   "status": "proved",
   "theorems": [
    "MMSP.IeeeDense.chain_frac",
    "MMSP.IeeeDense.chain_interior",
    "MMSP.IeeeDense.growth_whole",
    "MMSP.IeeeDense.zener_whole",
    "MMSP.IeeeDense.zener_garbage",
    "MMSP.IeeeDense.bad_spreads"
   ],
   "note": "Joins C97, C104, C105 and C118; arithmetic as in C118, MPI as in C50 and C72; uncompressed files, blocks below 2^31-1 bytes. Finding: generate of the Zener example assigns fields 0 and 1, and field 2 only inside the grains. In (4) `not finite` is an absorbing value of the model, as NaN is in IEEE arithmetic."
  },
  {
   "property": "C120",
   "status": "proved",
   "theorems": [
    "MMSP.Multigrid.call_flips",
    "MMSP.Multigrid.calls_sign",
    "MMSP.Multigrid.files_alternate",
    "MMSP.Multigrid.solution_negative",
    "MMSP.Multigrid.increments_matter"
   ],
   "note": "Exact arithmetic in an ordered field; serial build; one dimension (as in C92). Builds on C30 and C92."
  },
  {
   "property": "C121",
   "status": "proved",
   "theorems": [
    "MMSP.DenseDistance.node_frac",
    "MMSP.DenseDistance.node_gap",
    "MMSP.DenseDistance.growth_stable",
    "MMSP.DenseDistance.zener_stable",
    "MMSP.DenseDistance.step_stray",
    "MMSP.DenseDistance.growth_distance",
    "MMSP.DenseDistance.zener_distance",
    "MMSP.DenseDistance.shipped_thousand",
    "MMSP.DenseDistance.ranks_thousand",
    "MMSP.DenseDistance.two_machines"
   ],
   "note": "IEEE numbers as in C113/C118 (round to nearest, gradual underflow, overflow checked not to occur). pow is any function within two roundings of the cube and not negative. Parallel part builds on C87."
  },
  {
   "property": "C122",
   "status": "proved",
   "theorems": [
    "MMSP.DenseDistance.node_mono",
    "MMSP.DenseDistance.node_dominates",
    "MMSP.DenseDistance.growth_order",
    "MMSP.DenseDistance.zener_order",
    "MMSP.DenseDistance.particles_order",
    "MMSP.DenseDistance.growth_below",
    "MMSP.DenseDistance.below_not_shown",
    "MMSP.DenseDistance.growth_renumbered",
    "MMSP.DenseDistance.twins",
    "MMSP.DenseDistance.isoTerm_absent",
    "MMSP.DenseDistance.field_reach",
    "MMSP.DenseDistance.ranks_reach",
    "MMSP.DenseDistance.large_step_swaps"
   ],
   "note": "Parts 1-4 in exact arithmetic, 5 in any, 6 in IEEE numbers as in C113/C118; pow gives 0 for 0 in part 6. Programs as in C118/C121, conversion as in C39."
  },
  {
   "property": "C123",
   "status": "proved",
   "theorems": [
    "MMSP.MonteCarlo.kT_is",
    "MMSP.MonteCarlo.never_hot",
    "MMSP.MonteCarlo.bestExp_underflows",
    "MMSP.MonteCarlo.energy_kin",
    "MMSP.MonteCarlo.energy_double",
    "MMSP.MonteCarlo.shipped_cold",
    "MMSP.MonteCarlo.rest_iff",
    "MMSP.MonteCarlo.shipped_descends",
    "MMSP.MonteCarlo.shipped_rests",
    "MMSP.MonteCarlo.shipped_ranks",
    "MMSP.MonteCarlo.flat_settled",
    "MMSP.MonteCarlo.flat_forever"
   ],
   "note": "Program as in C54/C100, acceptance test in IEEE doubles. Assumed of exp: 0 for arguments up to -746 (true of the correctly rounded exp, bestExp_underflows). exact_accepts: with real numbers a rand() of 0 would be accepted."
  },
  {
   "property": "C124",
   "status": "proved",
   "theorems": [
    "MMSP.SpinDouble.sum_exact",
    "MMSP.SpinDouble.ising_exact",
    "MMSP.SpinDouble.potts_exact",
    "MMSP.SpinDouble.temp_exact",
    "MMSP.SpinDouble.ising_test",
    "MMSP.SpinDouble.potts_test",
    "MMSP.SpinDouble.differs_once",
    "MMSP.SpinDouble.ising_close",
    "MMSP.SpinDouble.ising_ieee_samples",
    "MMSP.SpinDouble.potts_close",
    "MMSP.SpinDouble.potts_ieee_samples",
    "MMSP.SpinDouble.bestExp_accurate"
   ],
   "note": "Programs as in C94 (serial, rand() uniform and independent), acceptance test in IEEE doubles. Assumed of exp: off by at most 2^-46 for arguments up to 0 (true of the correctly rounded exp, bestExp_accurate). The bounds grow with n: for n of the order of RAND_MAX they say nothing."
  },
  {
   "property": "C125",
   "status": "proved",
   "theorems": [
    "MMSP.ZenerEnd.single_stays",
    "MMSP.ZenerEnd.rests_iff",
    "MMSP.ZenerEnd.grains_vanish",
    "MMSP.ZenerEnd.bound_below_one",
    "MMSP.ZenerEnd.iso_warm",
    "MMSP.ZenerEnd.aniso_warm",
    "MMSP.ZenerEnd.bestExp_positive",
    "MMSP.ZenerEnd.walls_rest"
   ],
   "note": "Program as in C53 (serial, rand() uniform and independent), energies and mobilities of anisotropy.hpp as shipped (1 for different spins), acceptance tests in IEEE doubles, dE as in C53 (exact; integers up to 28). Assumed of exp: positive between -128 and 128 (true of the correctly rounded exp, bestExp_positive). (5) is a witness on 16 nodes."
  },
  {
   "property": "C126",
   "status": "proved",
   "theorems": [
    "MMSP.ZenerRanks.zenerAttempt_eq",
    "MMSP.ZenerRanks.zener_always_returns",
    "MMSP.ZenerRanks.zener_ends",
    "MMSP.ZenerRanks.single_grain_ranks"
   ],
   "note": "The attempt is that of C53 (zenerAttempt_eq), with the calls of ghostswap as in C101 and the message passing of C90. Assumed: blocking sends and receives are matched in order per pair of ranks; rand() and the acceptance tests are arbitrary. Energies in a linearly ordered field."
  },
  {
   "property": "C127",
   "status": "proved",
   "theorems": [
    "MMSP.HeisenbergDir.drawn_unit",
    "MMSP.HeisenbergDir.run_unit",
    "MMSP.HeisenbergDir.patch_share",
    "MMSP.HeisenbergDir.mean_drawn",
    "MMSP.HeisenbergDir.acos_defined",
    "MMSP.HeisenbergDir.psi_defined",
    "MMSP.HeisenbergDir.drawn_double",
    "MMSP.HeisenbergDir.sum_close",
    "MMSP.HeisenbergDir.double_ends",
    "MMSP.HeisenbergDir.best_trig"
   ],
   "note": "Assumed of the library: cos and sin between -7 and 7 accurate to 2^-52, acos between -1 and 1 to 2^-51 (true of correctly rounded functions, best_trig); exp arbitrary. Uniformity is over equally likely results of rand(). Whether parallel runs return is C101."
  },
  {
   "property": "C128",
   "status": "proved",
   "theorems": [
    "MMSP.Coalesce.heisenberg_meets",
    "MMSP.Coalesce.heisenberg_settles",
    "MMSP.Coalesce.potts_meets",
    "MMSP.Coalesce.potts_settles"
   ],
   "note": "Exact arithmetic, one rank, rand() uniform and independent. The rate is that of attempts accepted because rand() returned 0; the true rate is not claimed. The Ising example proposes the opposite of the present spin, so the argument does not apply to it."
  },
  {
   "property": "C129",
   "status": "proved",
   "theorems": [
    "MMSP.ConvexSolution.solution_unique",
    "MMSP.ConvexSolution.solution_exists",
    "MMSP.ConvexSolution.vanilla_step",
    "MMSP.ConvexSolution.parametric_step",
    "MMSP.ConvexSolution.vanilla_fixed",
    "MMSP.ConvexSolution.parametric_fixed",
    "MMSP.ConvexSolution.implicit_two"
   ],
   "note": "Exact real arithmetic, one rank. That the iteration reaches the solution is not claimed; update stops after a bounded number of iterations or when the residual is small (C57)."
  },
  {
   "property": "C130",
   "status": "proved",
   "theorems": [
    "MMSP.ReportEnergy.report_serial",
    "MMSP.ReportEnergy.report_ranks",
    "MMSP.ReportEnergy.report_swapped",
    "MMSP.ReportEnergy.centred_le",
    "MMSP.ReportEnergy.centred_bounded",
    "MMSP.ReportEnergy.report_rises"
   ],
   "note": "Exact arithmetic; component 1 of the gradient, which the function does not use, is left out. The function is not called and prints only the time step; the factor dV of the commented-out line is left out."
  },
  {
   "property": "C131",
   "status": "proved",
   "theorems": [
    "MMSP.RandomSeeds.seeds_inside",
    "MMSP.RandomSeeds.seeds_returned",
    "MMSP.RandomSeeds.ranks_differ",
    "MMSP.RandomSeeds.ranks_coincide",
    "MMSP.RandomSeeds.same_draws",
    "MMSP.RandomSeeds.random_grains",
    "MMSP.RandomSeeds.all_grains",
    "MMSP.RandomSeeds.lost_grains",
    "MMSP.RandomSeeds.no_repeats",
    "MMSP.RandomSeeds.repeats_certain"
   ],
   "note": "With sides that are no powers of two, returning depends on the sequence of the generator: the theorems speak about runs that return within the fuel. (3) counts outcomes; that the generator produces all of them equally often is not claimed."
  },
  {
   "property": "C132",
   "status": "proved",
   "theorems": [
    "MMSP.ConvexAccepted.residual_error",
    "MMSP.ConvexAccepted.accepted_error",
    "MMSP.ConvexAccepted.benchmark_factor",
    "MMSP.ConvexAccepted.uniform_accepted"
   ],
   "note": "Exact arithmetic with the exact square root, one rank. The simple energy (VANILLA) needs another argument, because its implicit part c^3 has derivative zero at c = 0: see C136."
  },
  {
   "property": "C133",
   "status": "proved",
   "theorems": [
    "MMSP.CellFiles.prims_restored",
    "MMSP.CellFiles.sparses_restored",
    "MMSP.CellFiles.vectors_restored_iff",
    "MMSP.CellFiles.vector_cut",
    "MMSP.CellFiles.vector_file_ambiguous",
    "MMSP.CellFiles.sparse_file_unambiguous",
    "MMSP.CellFiles.nothing_left",
    "MMSP.CellFiles.sparse_cut_short",
    "MMSP.CellFiles.sparse_negative"
   ],
   "note": "Writing does not fail and new succeeds for sizes that are not negative. Entries are trivially copyable. Grids do not use these functions: grid::read and write go through buffers (C13 to C16)."
  },
  {
   "property": "C134",
   "status": "proved",
   "theorems": [
    "MMSP.Pts.subscript",
    "MMSP.Pts.plus_minus",
    "MMSP.Pts.mulAssign_iff",
    "MMSP.Pts.small_factor",
    "MMSP.Pts.whole_divisor",
    "MMSP.Pts.half",
    "MMSP.Pts.timesInt_exact_iff",
    "MMSP.Pts.distance_iff",
    "MMSP.Pts.distance_cube",
    "MMSP.Pts.distance_metric"
   ],
   "note": "Floating-point arithmetic is exact. mmsp2topo applies these operators only where the factor or divisor converts exactly; the other cases arise in point_test.cpp or not at all in this repository."
  },
  {
   "property": "C135",
   "status": "proved",
   "theorems": [
    "MMSP.CentreSpan.mean_printed",
    "MMSP.CentreSpan.lower_end",
    "MMSP.CentreSpan.upper_end_iff",
    "MMSP.CentreSpan.upper_end_zero"
   ],
   "note": "Exact arithmetic; one axis, since the axes do not influence each other. Finding: the test for the maximum is an else branch of the test for the minimum, so the first grain never counts for the maximum."
  },
  {
   "property": "C136",
   "status": "proved",
   "theorems": [
    "MMSP.ConvexVanilla.poincare",
    "MMSP.ConvexVanilla.residual_error'",
    "MMSP.ConvexVanilla.vanilla_accepted_error",
    "MMSP.ConvexVanilla.vanilla_uniform_accepted"
   ],
   "note": "Exact arithmetic with the exact square root, one rank. The constant grows with the size of the grid, unlike that of C132."
  },
  {
   "property": "C137",
   "status": "proved",
   "theorems": [
    "MMSP.MTRand.seed_determined",
    "MMSP.MTRand.clock_streams",
    "MMSP.MTRand.clock_counts",
    "MMSP.MTRand.clock_collision",
    "MMSP.MTRand.auto_never_stuck",
    "MMSP.MTRand.randNorm_spec",
    "MMSP.MTRand.deviate_circle",
    "MMSP.MTRand.deviate_bound",
    "MMSP.MTRand.randNorm_bound",
    "MMSP.RandomSeeds.rank_streams",
    "MMSP.RandomSeeds.ranks_independent",
    "MMSP.RandomSeeds.ranks_later"
   ],
   "note": "64-bit unsigned long, time_t and clock_t, least significant byte first; what /dev/urandom delivers, the time and the clock are parameters. randNorm in exact real arithmetic, with rand() = randInt()/(2^32-1); its loop is bounded by fuel. Finding: the counter in hash does not prevent equal seeds at different times."
  },
  {
   "property": "C138",
   "status": "proved",
   "theorems": [
    "MMSP.MTRand.seed_repeats",
    "MMSP.MTRand.array_repeats",
    "MMSP.MTRand.bounded_draw"
   ],
   "note": "That the period is exactly 2^19937 - 1 is not claimed (it rests on a computation with polynomials of that degree)."
  },
  {
   "property": "C139",
   "status": "proved",
   "theorems": [
    "MMSP.MTRand.array_reaches",
    "MMSP.MTRand.array_or_number"
   ],
   "note": "Corrects the comment at 210-213. The array of 624 words is constructed by running the two loops of seed backwards."
  },
  {
   "property": "C140",
   "status": "proved",
   "theorems": [
    "MMSP.MTRand.arrays_differ",
    "MMSP.MTRand.arrays_alias",
    "MMSP.MTRand.arrays_623",
    "MMSP.MTRand.arrays_many",
    "MMSP.MTRand.arrays_exactly"
   ],
   "note": "(4) shows that the bound 622 in (1) is sharp. Which arrays of different length agree in general is not treated; (2) gives one family. Arrays of more than 624 words are not treated. That uniform words make the reachable streams equally likely follows from (3) by counting; probability itself is not modelled."
  }
 ]
}
