import Verif.Common
import Verif.Region.Props
import Verif.Array.Props
import Verif.Cyclic.Props
import Verif.Sys.MsgStack
import Verif.Sys.Range
import Verif.Sys.Edit
import Verif.Sys.Str
import Verif.Sys.Matrix
import Verif.Options.Model
import Verif.Options.Lemmas
import Verif.Options.Lemmas2
import Verif.Options.Props
import Verif.Options.Paths
import Verif.Options.Ini
import Verif.Options.IniWrite
import Verif.Options.IniRound
import Verif.Options.IniRoundProps
import Verif.Options.Conv
import Verif.Expr.EvalProps
import Verif.Mesh.Index
import Verif.Mesh.Check
import Verif.Mesh.ConnProps
import Verif.Mesh.ConnWitness
import Verif.Mesh.Closed
import Verif.Comm.Pack
import Verif.Comm.Model
import Verif.Comm.Match
import Verif.Comm.MatchProps
import Verif.Comm.Sched
import Verif.Comm.Guard
import Verif.Comm.GuardProps
import Verif.Comm.Twist
import Verif.Comm.Final
import Verif.Comm.Fill
import Verif.Comm.Progress
import Verif.Comm.Boundary
import Verif.Comm.Handle
import Verif.Comm.Corner
import Verif.Solver.Monitor
import Verif.Solver.MonitorProps
import Verif.Solver.MonitorRun
import Verif.Solver.MonitorWitness
import Verif.Solver.Vars
import Verif.Solver.VarsProps
import Verif.Solver.VarsFinal
import Verif.Solver.RK
import Verif.Solver.Butcher
import Verif.Solver.ButcherProps
import Verif.Solver.RKProps
import Verif.Solver.RKFinal
import Verif.Solver.Run
import Verif.Solver.RunProps
import Verif.Solver.EulerProps
import Verif.Num.Limiter
import Verif.Num.Flux
import Verif.Num.FluxProps
import Verif.Num.DiffusionProps
import Verif.Num.D4IndexProps
import Verif.Num.Perp
import Verif.Num.PerpProps
import Verif.Num.Stencil
import Verif.Num.StencilProps
import Verif.Num.StencilMore
import Verif.Num.Bracket
import Verif.Num.BracketProps
import Verif.Num.Bndry
import Verif.Num.BndryProps
import Verif.Num.BndryMain
import Verif.Num.BndryMore
import Verif.Num.Metric
import Verif.Num.MetricProps
import Verif.Num.VecProps
import Verif.Mesh.Regions
import Verif.Mesh.RegionsProps
import Verif.Mesh.RegionsBndry
import Verif.Indexer.Model
import Verif.Indexer.Props
import Verif.Indexer.Layout
import Verif.Indexer.Example
import Verif.Comm.Whole
import Verif.Indexer.Guard
import Verif.Indexer.GuardExample
import Verif.Sys.Factory
import Verif.Mesh.GridFile
import Verif.Mesh.GridFileProps
import Verif.Num.Interp
import Verif.Num.InterpProps
import Verif.Field.Model
import Verif.Field.Props
import Verif.Num.Reduce
import Verif.Num.ReduceProps
import Verif.Mesh.YComm
import Verif.Mesh.YCommSpec
import Verif.Mesh.YCommProps
import Verif.Mesh.YCommMain
import Verif.Mesh.YCommThms
import Verif.Num.Fourier
import Verif.Num.FourierSpec
import Verif.Num.FourierProps
import Verif.Num.FourierRow
import Verif.Num.FourierThms
import Verif.Num.FourierThms2
import Verif.Num.FourierThms3
import Verif.Invert.Laplace
import Verif.Invert.LaplaceSpec
import Verif.Invert.LaplaceProps
import Verif.Invert.LaplaceSolve
import Verif.Invert.LaplaceThms
import Verif.Invert.LaplaceBndry
import Verif.Invert.LaplaceOuter
import Verif.Invert.LaplaceExist
import Verif.Invert.LaplacePeriodic
import Verif.Invert.LaplaceExist2
import Verif.Cyclic.Dominant
import Verif.Invert.Par
import Verif.Invert.ParSpec
import Verif.Invert.ParProps
import Verif.Invert.ParThms
import Verif.Invert.ParSaw
import Verif.Invert.ParExist
import Verif.Cyclic.Block
import Verif.Invert.LaplaceWide
import Verif.Num.DiffAlg
import Verif.Num.ParOps
import Verif.Num.ParOpsProps
import Verif.Num.ParOpsMore
import Verif.Num.Torsion
import Verif.Num.SingleIndex
import Verif.Num.SingleIndexProps
import Verif.Num.SingleIndexOps
import Verif.Invert.Spt
import Verif.Invert.SptProps
import Verif.Invert.SptMain
import Verif.Invert.SptExist
import Verif.Invert.LaplaceSolvers
import Verif.Invert.LaplaceView
import Verif.Invert.SptThms
import Verif.Invert.SptSched
import Verif.Invert.SerialTri
import Verif.Solver.Adams
import Verif.Solver.AdamsQuad
import Verif.Solver.AdamsHigh
import Verif.Solver.AdamsRun
import Verif.Solver.AdamsMain
import Verif.Solver.AdamsReal
import Verif.Solver.Legendre
import Verif.Solver.SplitRK
import Verif.Solver.SplitRKProps
import Verif.Solver.SplitRKOrder
import Verif.Solver.SplitRKStab
import Verif.Solver.SplitRKStrang
import Verif.Solver.SplitRKRun
import Verif.Solver.SplitRKMain
import Verif.Solver.Imex
import Verif.Solver.ImexCoeffs
import Verif.Solver.ImexRun
import Verif.Solver.ImexMain
import Verif.Solver.ImexMore
import Verif.Bndry.Factory
import Verif.Bndry.FactoryProps
import Verif.Bndry.FactoryMain
import Verif.Bndry.FactoryThms
import Verif.Bndry.Modify
import Verif.Bndry.Own
import Verif.Bndry.Direct
import Verif.Restart.Model
import Verif.Restart.Props
import Verif.Restart.Main
import Verif.Restart.More
import Verif.Restart.Scalars
import Verif.Invert.SptMore
import Verif.Deriv.Store
import Verif.Deriv.StoreProps
import Verif.Deriv.Dispatch
import Verif.Deriv.DispatchProps
import Verif.Deriv.DispatchThms
import Verif.Deriv.Flow
import Verif.Deriv.Calls
import Verif.Deriv.Physical
import Verif.Deriv.ParDeriv
import Verif.Invert.Pcr
import Verif.Invert.PcrProps
import Verif.Invert.PcrCore
import Verif.Invert.PcrBndry
import Verif.Invert.PcrThomas
import Verif.Invert.PcrPivots
import Verif.Invert.LaplacePcr
import Verif.Invert.PcrThms
import Verif.Expr.Factory
import Verif.Expr.FactorySim
import Verif.Expr.FactorySpec
import Verif.Expr.FactoryMain
import Verif.Expr.FactoryTerm
import Verif.Expr.FactoryThms
import Verif.Expr.FactoryFindings
import Verif.Mesh.Coord
import Verif.Mesh.CoordProps
import Verif.Mesh.CoordThms
import Verif.Mesh.GField
import Verif.Mesh.GFieldProps
import Verif.Mesh.GFieldThms
import Verif.Fci.Model
import Verif.Fci.Props
import Verif.Fci.Thms
import Verif.Invert.LapXZExist
import Verif.Invert.NaulinThms
import Verif.Sys.TimerThms
import Verif.Mesh.Extrap
import Verif.Mesh.ExtrapProps
import Verif.Mesh.ExtrapThms
import Verif.Mesh.ExtrapExact
import Verif.Invert.LapXY
import Verif.Invert.LapXYProps
import Verif.Invert.LapXYMain
import Verif.Invert.LapXYThms
import Verif.Invert.LapXYSlab
import Verif.Invert.LapXYMore
import Verif.Invert.LapXYCorner
import Verif.Options.CmdArgs
import Verif.Options.CmdArgsThms
import Verif.Options.CmdArgsWit
import Verif.Fft.Heap
import Verif.Fft.Serial
import Verif.Fft.Par
import Verif.Fft.Calls
import Verif.Fft.SerialProps
import Verif.Fft.ParInv
import Verif.Fft.ParStep
import Verif.Fft.ParRun
import Verif.Fft.ParLive
import Verif.Fft.Thms
import Verif.Fft.Wit
import Verif.Invert.LapPetsc
import Verif.Invert.LapPetscProps
import Verif.Invert.LapPetscAsm
import Verif.Invert.LapPetscFit
import Verif.Invert.LapPetscRow
import Verif.Invert.LapPetscSpec
import Verif.Invert.LapPetscMain
import Verif.Invert.LapPetscThms
import Verif.Invert.LapPetscMore
import Verif.Solver.Snes
import Verif.Solver.SnesSpec
import Verif.Solver.SnesProps
import Verif.Solver.SnesRun
import Verif.Solver.SnesThms
import Verif.Solver.SnesMore
import Verif.Solver.Sundials
import Verif.Solver.SundialsSpec
import Verif.Solver.SundialsProps
import Verif.Solver.SundialsThms
import Verif.Solver.SundialsMore
import Verif.Invert.Lap3D
import Verif.Invert.Lap3DSpec
import Verif.Invert.Lap3DProps
import Verif.Invert.Lap3DRow
import Verif.Invert.Lap3DHist
import Verif.Invert.Lap3DThms
import Verif.Invert.Ipt
import Verif.Invert.IptSpec
import Verif.Invert.IptProps
import Verif.Invert.IptThms
import Verif.Invert.IptEx
import Verif.Invert.SBand
import Verif.Invert.SBandSpec
import Verif.Invert.SBandThms
import Verif.Invert.SBandGrad
import Verif.Invert.MG
import Verif.Invert.MGSpec
import Verif.Invert.MGProps
import Verif.Invert.MGThms
import Verif.Invert.MGCycle
import Verif.Invert.MGFix
import Verif.Invert.MGLimit
import Verif.Invert.MGExamples
import Verif.Options.Fuzzy
import Verif.Options.FuzzyThms
import Verif.Options.FuzzyExpr
import Verif.Sys.Libs
import Verif.Sys.LibsThms
import Verif.Sys.LibsEnd
import Verif.Sys.LibsComm
import Verif.Solver.Rhs
import Verif.Solver.RhsThms
import Verif.Solver.RhsEx
import Verif.Solver.Power
import Verif.Solver.PowerThms
import Verif.Solver.PowerEx
import Verif.Solver.Slepc
import Verif.Solver.SlepcThms
import Verif.Solver.SlepcEx
import Verif.Physics.Gyro
import Verif.Physics.GyroThms
import Verif.Physics.GyroEx
import Verif.Mesh.CAcc
import Verif.Mesh.CAccThms
import Verif.Mesh.CAccEx
import Verif.Physics.Snb
import Verif.Physics.SnbThms
import Verif.Physics.SnbEx
import Verif.Invert.LapSlice
import Verif.Invert.LapSliceThms
import Verif.Invert.LapSliceEx
import Verif.Field.PerpIndex
import Verif.Field.PerpIndexThms
import Verif.Field.PerpIndexEx
import Verif.Physics.SourceX
import Verif.Physics.SourceXThms
import Verif.Physics.SourceXEx
