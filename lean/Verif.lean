import Verif.Outcome
import Verif.Boundary
import Verif.BoundaryProps
import Verif.MixedRadix
import Verif.Index
import Verif.IndexProps
import Verif.Decomp
import Verif.DecompLemmas
import Verif.DecompProps
import Verif.Buffer
import Verif.BufferLemmas
import Verif.BufferProps
import Verif.Ghost
import Verif.GhostProps
import Verif.Rounds
import Verif.GhostSched
import Verif.Sublattice
import Verif.Heap
import Verif.HeapProps
import Verif.HeapSeq
import Verif.Sparse
import Verif.SparseProps
import Verif.Proc
import Verif.Global
import Verif.GridCopy
import Verif.GridCopyProps
import Verif.Stencil
import Verif.StencilProps
import Verif.StencilField
import Verif.Conserve
import Verif.StencilExamples
import Verif.FileIO
import Verif.FileIOProps
import Verif.FileIOMisread
import Verif.FileHeader
import Verif.FileHeaderProps
import Verif.ParallelOutput
import Verif.ParallelOutputProps
import Verif.ParallelRun
import Verif.ParallelRunProps
import Verif.AggregatedOutput
import Verif.AggregatedOutputProps
import Verif.Driver
import Verif.DriverProps
import Verif.PriorityQueue
import Verif.PriorityQueueProps
import Verif.Tessellate
import Verif.TessellateProps
import Verif.TessellateHang
import Verif.TessellateNever
import Verif.MTRand
import Verif.MTRandProps
import Verif.MTRandRange
import Verif.WrongEndian
import Verif.WrongEndianProps
import Verif.WrongEndianFile
import Verif.Convert
import Verif.ConvertProps
import Verif.ConvertSparse
import Verif.GrainSize
import Verif.GrainSizeProps
import Verif.SparsePF
import Verif.SparsePFProps
import Verif.Spin
import Verif.SpinProps
import Verif.Anisotropy
import Verif.SpinZener
import Verif.MonteCarlo
import Verif.MonteCarloProps
import Verif.Image
import Verif.ImageProps
import Verif.Topology
import Verif.TopologyProps
import Verif.TopologyGrains
import Verif.Multigrid
import Verif.MultigridProps
import Verif.MultigridCycle
import Verif.MultigridRun
import Verif.ConvexSplit
import Verif.ConvexSplitProps
import Verif.ConvexSplitRun
import Verif.Overflow
import Verif.OverflowProps
import Verif.VecMath
import Verif.VecMathProps
import Verif.Tool
import Verif.ToolProps
import Verif.Tsv
import Verif.TsvProps
import Verif.Vtk
import Verif.VtkProps
import Verif.DensePF
import Verif.DensePFProps
import Verif.Relax
import Verif.RelaxProps
import Verif.Ostwald
import Verif.OstwaldProps
import Verif.Solid
import Verif.SolidProps
import Verif.Noise
import Verif.NoiseProps
import Verif.Generate
import Verif.GenerateProps
import Verif.Session
import Verif.SessionProps
import Verif.Voxel
import Verif.VoxelProps
import Verif.SparseRun
import Verif.SparseRunProps
import Verif.Generators
import Verif.GeneratorsMarch
import Verif.GeneratorsOrder
import Verif.GeneratorsVoronoi
import Verif.GeneratorsSeeds
import Verif.GeneratorsSeedsProps
import Verif.ConvertFile
import Verif.ConvertFileProps
import Verif.Options
import Verif.OptionsProps
import Verif.Cloud
import Verif.CloudProps
import Verif.Progress
import Verif.ProgressProps
import Verif.TopologyTable
import Verif.TopologyTableProps
import Verif.TopologyTableRun
import Verif.ParallelExamples
import Verif.ParallelExamplesProps
import Verif.ParallelExamplesLink
import Verif.Restart
import Verif.ParallelBoard
import Verif.ParallelBoardProps
import Verif.ParallelBoardLink
import Verif.AsyncRun
import Verif.AsyncRunProps
import Verif.MultigridConverge
import Verif.MultigridLine
import Verif.MultigridRanks
import Verif.Sampling
import Verif.SpinSampling
import Verif.RoundNearest
import Verif.Rounded
import Verif.Steady
import Verif.SessionCells
import Verif.AsyncReduce
import Verif.AsyncReduceProps
import Verif.SessionMixed
import Verif.MonteCarloRanks
import Verif.MonteCarloRanksProps
import Verif.SpinSchedule
import Verif.UnequalCalls
import Verif.SpinScheduleProps
import Verif.EachRun
import Verif.EachRunProps
import Verif.SpinSerial
import Verif.GenerateRanks
import Verif.GenerateRanksProps
import Verif.GenerateStart
import Verif.GenerateConvex
import Verif.RoundConserve
import Verif.RoundConserveRanks
import Verif.Symmetry
import Verif.SymmetryShift
import Verif.SymmetryTurn
import Verif.ExplicitEnergy
import Verif.ExplicitEnergyRanks
import Verif.RoundConfine
import Verif.Compare
import Verif.Ieee
import Verif.IeeeCodec
import Verif.IeeeConfine
import Verif.IeeeWhole
import Verif.Export
import Verif.ExportProps
import Verif.ConvexRestart
import Verif.DenseEnergy
import Verif.IeeeDense
import Verif.DriverExample
import Verif.IeeeDenseWhole
import Verif.HeapNew
import Verif.OstwaldWells
import Verif.MultigridDriver
import Verif.DenseDistance
import Verif.SparseStale
import Verif.DenseOrder
import Verif.MonteCarloRest
import Verif.SpinDouble
import Verif.ZenerEnd
import Verif.ZenerRanks
import Verif.HeisenbergDir
import Verif.Coalesce
import Verif.ConvexSolution
import Verif.ReportEnergy
import Verif.RandomSeeds
import Verif.ConvexAccepted
import Verif.CellFiles
import Verif.Points
import Verif.CentreSpan
import Verif.ConvexVanilla
import Verif.MTRandSeed
import Verif.RankStreams
import Verif.MTRandPeriod
import Verif.MTRandArray
import Verif.MTRandKeys
