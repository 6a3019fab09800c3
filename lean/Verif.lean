import Verif.Props.Mesh
import Verif.Props.Band
import Verif.Props.Solver
import Verif.Props.Basis
import Verif.Props.Spline
import Verif.Props.Interpolation
import Verif.Props.Coords
import Verif.Props.ThreadPool
import Verif.Props.MultiThread
import Verif.Props.Allocator
import Verif.Props.CellLayout
import Verif.Props.Pre17
import Verif.Props.Pivot
import Verif.Props.Checks
import Verif.Props.Direct
import Verif.Props.Symmetry
import Verif.Props.Mirror
import Verif.ForkJoin
import Verif.Proofs.ForkJoin
import Verif.Proofs.PoolJobs
import Verif.Props.ForkJoin
import Verif.Proofs.Linear
import Verif.Props.Linear
import Verif.Proofs.Rotate
import Verif.Props.Rotate
import Verif.Uninit
import Verif.Proofs.Uninit
import Verif.Props.Uninit
import Verif.PoolStats
import Verif.Proofs.PoolStats
import Verif.Props.PoolStats
import Verif.Arith
import Verif.FloatModel
import Verif.Float64
import Verif.Proofs.FloatTie
import Verif.Proofs.FloatSafe
import Verif.Proofs.FloatBuild
import Verif.Proofs.FloatWrap
import Verif.Proofs.FloatLinear
import Verif.Props.Float
import Verif.CellFloat
import Verif.Proofs.CellFloat
import Verif.Proofs.CellFloatTie
import Verif.Proofs.F64Idem
import Verif.Props.CellFloat
import Verif.Proofs.RoundCell
import Verif.Props.CellRound
import Verif.Rounding
import Verif.Proofs.RoundBasis
import Verif.Proofs.RoundEval
import Verif.Proofs.F64Round
import Verif.Proofs.F64Nearest
import Verif.Props.Rounding
import Verif.Backward
import Verif.Proofs.FlElim
import Verif.Proofs.RoundLU
import Verif.Proofs.F64Back
import Verif.Props.RoundSolver
import Verif.Matlab
import Verif.Proofs.Matlab
import Verif.Props.Matlab
import Verif.Proofs.FlSweep
import Verif.Proofs.FlAssemble
import Verif.Proofs.SweepError
import Verif.Proofs.RoundAxis
import Verif.Proofs.RoundInterp
import Verif.Proofs.RoundKnots
import Verif.Proofs.BasisPerturb
import Verif.Proofs.InterpCore
import Verif.Props.RoundInterp
import Verif.Proofs.UniformBase
import Verif.Proofs.RoundUniform
import Verif.Proofs.UniformAxis
import Verif.Proofs.InterpAxes
import Verif.Props.RoundUniform
import Verif.MeshWord
import Verif.Proofs.MeshWord
import Verif.Props.MeshWord
import Verif.Nested
import Verif.Proofs.Nested
import Verif.Props.Nested
import Verif.Proofs.Dominant
import Verif.Proofs.DominantElim
import Verif.Proofs.DominantSolve
import Verif.Proofs.DominantAxis
import Verif.Proofs.DominantUniform
import Verif.Proofs.DominantRows
import Verif.Props.RoundSmall
import Verif.Proofs.NearExact
import Verif.Proofs.NearKnots
import Verif.Proofs.NearKnotsDeriv
import Verif.Proofs.NearAxis
import Verif.Props.RoundNear
import Verif.Unwind
import Verif.Proofs.Unwind
import Verif.Props.Unwind
import Verif.PoolCtor
import Verif.Proofs.PoolCtor
import Verif.Props.PoolCtor
import Verif.Proofs.RoundDeriv
import Verif.Proofs.RoundDerivAt
import Verif.Props.RoundDeriv
import Verif.Proofs.PerSolve
import Verif.Proofs.PerKnots
import Verif.Proofs.PerAssemble
import Verif.Proofs.PerRows
import Verif.Proofs.PerAxes
import Verif.Props.RoundPeriodic
import Verif.Proofs.PerDominant
import Verif.Props.RoundPerSmall
import Verif.Proofs.PerWrap
import Verif.Proofs.PerNear
import Verif.Proofs.NearFns
import Verif.Props.RoundPerNear
import Verif.SignedZero
import Verif.Proofs.Param
import Verif.Proofs.ParamCell
import Verif.Proofs.ParamMap
import Verif.Props.Param
import Verif.Proofs.ParamLU
import Verif.Proofs.ParamZero
import Verif.Props.ParamZero
import Verif.Spec.Approx
import Verif.Proofs.Quasi
import Verif.Proofs.Taylor
import Verif.Proofs.Cardinal
import Verif.Proofs.Spans
import Verif.Proofs.Approx
import Verif.Proofs.LowOrder
import Verif.Proofs.ApproxInterp
import Verif.Props.Approx
import Verif.Proofs.FieldEmbed
import Verif.Props.RoundTrue
import Verif.Spec.Mixed
import Verif.Proofs.SpanMin
import Verif.Proofs.DerivApprox
import Verif.Proofs.DerivInterp
import Verif.Props.DerivRate
import Verif.Props.RoundDerivNear
import Verif.EndTypes
import Verif.Overloads
import Verif.Proofs.EndTypes
import Verif.Props.EndTypes
import Verif.Props.Overloads
import Verif.Proofs.Nearest
import Verif.Props.Nearest
import Verif.Props.NearestFloat
import Verif.Proofs.NearestFloat
import Verif.Unfilled
import Verif.Proofs.Unfilled
import Verif.Props.Unfilled
import Verif.PoolInstance
import Verif.Proofs.PoolInstance
import Verif.Props.PoolInstance
import Verif.Trace
import Verif.Proofs.Trace
import Verif.Props.Trace
import Verif.TestSuite
import Verif.TestSuiteCell
