import Verif.Model.Append
import Verif.Model.Bytes
import Verif.Model.CertMem
import Verif.Model.Certificate
import Verif.Model.Commit
import Verif.Model.Csr
import Verif.Model.Datatype
import Verif.Model.Dense
import Verif.Model.Density
import Verif.Model.Dm
import Verif.Model.Echelonize
import Verif.Model.FfpackGlue
import Verif.Model.Gesv
import Verif.Model.Gplu
import Verif.Model.Gray
import Verif.Model.Greedy
import Verif.Model.GreedyBuffer
import Verif.Model.Heap
import Verif.Model.HeapCheck
import Verif.Model.HeapLib
import Verif.Model.HeapMain
import Verif.Model.Human
import Verif.Model.Io
import Verif.Model.Kernel
import Verif.Model.Lu
import Verif.Model.Machine
import Verif.Model.Main
import Verif.Model.MainTools
import Verif.Model.Matching
import Verif.Model.Numeric
import Verif.Model.Options
import Verif.Model.Permutation
import Verif.Model.Pivots
import Verif.Model.Pnm
import Verif.Model.Prng
import Verif.Model.RandomRows
import Verif.Model.Reach
import Verif.Model.Rref
import Verif.Model.RrefLoops
import Verif.Model.Samples
import Verif.Model.Scc
import Verif.Model.Schur
import Verif.Model.Sha256
import Verif.Model.Solve
import Verif.Model.StoreBuffer
import Verif.Model.Text
import Verif.Model.Tools
import Verif.Model.ToolsLin
import Verif.Model.Triangular
import Verif.Model.Triplet
import Verif.Model.Width
import Verif.Model.Workspace
import Verif.Model.ZZp
import Verif.Prelude
import Verif.Proofs.Append
import Verif.Proofs.AppendEnd
import Verif.Proofs.Bitmap
import Verif.Proofs.BitmapFile
import Verif.Proofs.Block
import Verif.Proofs.BlockRank
import Verif.Proofs.Bytes
import Verif.Proofs.CertCreate
import Verif.Proofs.CertFile
import Verif.Proofs.CertMem
import Verif.Proofs.CertSound
import Verif.Proofs.Certificate
import Verif.Proofs.Chunk
import Verif.Proofs.ChunkRun
import Verif.Proofs.Commit
import Verif.Proofs.Compress
import Verif.Proofs.Csr
import Verif.Proofs.CsrRows
import Verif.Proofs.Dense
import Verif.Proofs.DenseMachine
import Verif.Proofs.DenseRand
import Verif.Proofs.DenseSolve
import Verif.Proofs.Density
import Verif.Proofs.Dm
import Verif.Proofs.DmCanon
import Verif.Proofs.DmCanonFine
import Verif.Proofs.DmCoarse
import Verif.Proofs.DmCollect
import Verif.Proofs.DmEntries
import Verif.Proofs.DmFine
import Verif.Proofs.Draws
import Verif.Proofs.Driver
import Verif.Proofs.DriverDense
import Verif.Proofs.DriverEnd
import Verif.Proofs.DriverFinish
import Verif.Proofs.DriverLowrank
import Verif.Proofs.DriverRounds
import Verif.Proofs.DriverSample
import Verif.Proofs.DriverSchur
import Verif.Proofs.Enc
import Verif.Proofs.Entry
import Verif.Proofs.Extract
import Verif.Proofs.FfRank
import Verif.Proofs.FfpackExists
import Verif.Proofs.FfpackGlue
import Verif.Proofs.FfpackTable
import Verif.Proofs.File
import Verif.Proofs.FileOut
import Verif.Proofs.FileRows
import Verif.Proofs.FileUnique
import Verif.Proofs.Gesv
import Verif.Proofs.Gplu
import Verif.Proofs.Gray
import Verif.Proofs.Greedy
import Verif.Proofs.GreedyBuffer
import Verif.Proofs.GreedySearch
import Verif.Proofs.GreedyStep
import Verif.Proofs.Grow
import Verif.Proofs.HeapCheck
import Verif.Proofs.HeapEch
import Verif.Proofs.HeapFact
import Verif.Proofs.HeapLib
import Verif.Proofs.HeapLogic
import Verif.Proofs.HeapMain
import Verif.Proofs.HeapUtil
import Verif.Proofs.Inverse
import Verif.Proofs.Kernel
import Verif.Proofs.KernelRref
import Verif.Proofs.Lax
import Verif.Proofs.LaxCert
import Verif.Proofs.LaxLoad
import Verif.Proofs.LaxStrict
import Verif.Proofs.LaxUnique
import Verif.Proofs.Lists
import Verif.Proofs.Load
import Verif.Proofs.LoadAny
import Verif.Proofs.LoadHash
import Verif.Proofs.LoadHeader
import Verif.Proofs.Lu
import Verif.Proofs.Machine
import Verif.Proofs.Matching
import Verif.Proofs.MaxMatching
import Verif.Proofs.Numeric
import Verif.Proofs.NumericAny
import Verif.Proofs.Options
import Verif.Proofs.Partial
import Verif.Proofs.Pattern
import Verif.Proofs.Permutation
import Verif.Proofs.Pivots
import Verif.Proofs.Pnm
import Verif.Proofs.Prng
import Verif.Proofs.RandomBlind
import Verif.Proofs.RandomRows
import Verif.Proofs.Rank
import Verif.Proofs.Reach
import Verif.Proofs.Reorder
import Verif.Proofs.Repro
import Verif.Proofs.Rounding
import Verif.Proofs.Rows
import Verif.Proofs.Rref
import Verif.Proofs.RrefLoops
import Verif.Proofs.Samples
import Verif.Proofs.SamplesRun
import Verif.Proofs.Save
import Verif.Proofs.Scc
import Verif.Proofs.SccLoop
import Verif.Proofs.Schur
import Verif.Proofs.Sha256
import Verif.Proofs.Solve
import Verif.Proofs.SolveParts
import Verif.Proofs.SparseSolve
import Verif.Proofs.Stale
import Verif.Proofs.Steps
import Verif.Proofs.StoreBuffer
import Verif.Proofs.Submatrix
import Verif.Proofs.Text
import Verif.Proofs.Tools
import Verif.Proofs.Transfer
import Verif.Proofs.TransferBlock
import Verif.Proofs.TransferLU
import Verif.Proofs.Transpose
import Verif.Proofs.Triplet
import Verif.Proofs.Truncate
import Verif.Proofs.Width
import Verif.Proofs.WidthScc
import Verif.Proofs.Workspace
import Verif.Proofs.Wp
import Verif.Proofs.WpE
import Verif.Proofs.ZZp
import Verif.Proofs.Zeroes
import Verif.Props.Accept
import Verif.Props.AcceptCert
import Verif.Props.Bitmap
import Verif.Props.Bytes
import Verif.Props.Cancel
import Verif.Props.Canonical
import Verif.Props.CertFile
import Verif.Props.CertForge
import Verif.Props.CertMem
import Verif.Props.Certificate
import Verif.Props.CommandLine
import Verif.Props.Commit
import Verif.Props.Compose
import Verif.Props.ComposeDm
import Verif.Props.ComposeMove
import Verif.Props.Csr
import Verif.Props.Datatype
import Verif.Props.Dense
import Verif.Props.Density
import Verif.Props.Dm
import Verif.Props.DmCanonical
import Verif.Props.DmDet
import Verif.Props.DmOverflow
import Verif.Props.DmRank
import Verif.Props.DmWritten
import Verif.Props.Echelonize
import Verif.Props.EchelonizeLimits
import Verif.Props.Extract
import Verif.Props.FfpackGlue
import Verif.Props.Gplu
import Verif.Props.Gray
import Verif.Props.Greedy
import Verif.Props.GreedyBuffer
import Verif.Props.Heap
import Verif.Props.HeapCheck
import Verif.Props.Human
import Verif.Props.Invariant
import Verif.Props.Io
import Verif.Props.IoAny
import Verif.Props.Kernel
import Verif.Props.Machine
import Verif.Props.Main
import Verif.Props.MainAny
import Verif.Props.MainTools
import Verif.Props.Matching
import Verif.Props.Moves
import Verif.Props.Numeric
import Verif.Props.NumericAny
import Verif.Props.Options
import Verif.Props.PivotColumns
import Verif.Props.Pivots
import Verif.Props.Pnm
import Verif.Props.Prng
import Verif.Props.RandomRows
import Verif.Props.Repro
import Verif.Props.RrefLoops
import Verif.Props.Samples
import Verif.Props.SamplesMain
import Verif.Props.Scc
import Verif.Props.Schur
import Verif.Props.Sha256
import Verif.Props.SmallChange
import Verif.Props.Solve
import Verif.Props.SolveRank
import Verif.Props.SolveUnique
import Verif.Props.StoreBuffer
import Verif.Props.StructuralRank
import Verif.Props.ToolCert
import Verif.Props.ToolDm
import Verif.Props.Tools
import Verif.Props.ToolsLin
import Verif.Props.Transfer
import Verif.Props.Triangular
import Verif.Props.Triplet
import Verif.Props.Truncate
import Verif.Props.Width
import Verif.Props.Workspace
import Verif.Props.ZZp
import Verif.Spec.Bitmap
import Verif.Spec.Certificate
import Verif.Spec.Check
import Verif.Spec.Check2
import Verif.Spec.Check3
import Verif.Spec.Columns
import Verif.Spec.Commit
import Verif.Spec.Csr
import Verif.Spec.Dense
import Verif.Spec.Density
import Verif.Spec.Dm
import Verif.Spec.DmCanon
import Verif.Spec.DmForm
import Verif.Spec.DmReport
import Verif.Spec.Driver
import Verif.Spec.Echelonize
import Verif.Spec.Ffpack
import Verif.Spec.FfpackLib
import Verif.Spec.File
import Verif.Spec.Gray
import Verif.Spec.Heap
import Verif.Spec.Integers
import Verif.Spec.Kernel
import Verif.Spec.Lax
import Verif.Spec.LaxCert
import Verif.Spec.Loaded
import Verif.Spec.Lu
import Verif.Spec.Machine
import Verif.Spec.MainTools
import Verif.Spec.Matching
import Verif.Spec.Options
import Verif.Spec.Order
import Verif.Spec.Permutation
import Verif.Spec.Pivots
import Verif.Spec.Pnm
import Verif.Spec.Prng
import Verif.Spec.Reach
import Verif.Spec.Repro
import Verif.Spec.Samples
import Verif.Spec.Scc
import Verif.Spec.Schur
import Verif.Spec.Sequential
import Verif.Spec.Sha256
import Verif.Spec.Stack
import Verif.Spec.Stale
import Verif.Spec.Text
import Verif.Spec.Triangular
import Verif.Spec.Triplet
import Verif.Spec.ZZp
