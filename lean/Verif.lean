import Verif.Model.Basic
import Verif.Model.BmmPar
import Verif.Model.Debug
import Verif.Model.Functional
import Verif.Model.GradLock
import Verif.Model.Graph
import Verif.Model.Ints
import Verif.Model.Iter
import Verif.Model.Jvp
import Verif.Model.Machine
import Verif.Model.MachineOps
import Verif.Model.MachineTrain
import Verif.Model.Main
import Verif.Model.Memory
import Verif.Model.Nn
import Verif.Model.Panic
import Verif.Model.PoolMany
import Verif.Model.SplitWriter
import Verif.Model.Tensor
import Verif.Model.Text
import Verif.Model.Train
import Verif.Model.Unused
import Verif.Model.Utils
import Verif.Spec
import Verif.Lemmas.Accepts
import Verif.Lemmas.Accum
import Verif.Lemmas.Adjoint
import Verif.Lemmas.Alone
import Verif.Lemmas.Arith
import Verif.Lemmas.Balance
import Verif.Lemmas.BalanceWide
import Verif.Lemmas.Batch
import Verif.Lemmas.Binary
import Verif.Lemmas.BinaryNumbers
import Verif.Lemmas.Blank
import Verif.Lemmas.Bmm
import Verif.Lemmas.BmmJvp
import Verif.Lemmas.BmmPar
import Verif.Lemmas.BmmStack
import Verif.Lemmas.Bound
import Verif.Lemmas.Cells
import Verif.Lemmas.Climb
import Verif.Lemmas.Collapse
import Verif.Lemmas.Constant
import Verif.Lemmas.Construct
import Verif.Lemmas.Converge
import Verif.Lemmas.Cost
import Verif.Lemmas.Cut
import Verif.Lemmas.CutTrain
import Verif.Lemmas.Debug
import Verif.Lemmas.Delay
import Verif.Lemmas.DelayRuns
import Verif.Lemmas.Descent
import Verif.Lemmas.DescentDeep
import Verif.Lemmas.DescentLayer
import Verif.Lemmas.EmptyView
import Verif.Lemmas.Exact2
import Verif.Lemmas.Feature
import Verif.Lemmas.ForwardShapes
import Verif.Lemmas.Fresh
import Verif.Lemmas.Generic
import Verif.Lemmas.GenericSteps
import Verif.Lemmas.Get
import Verif.Lemmas.GradLock
import Verif.Lemmas.GradLock2
import Verif.Lemmas.GradLock3
import Verif.Lemmas.GradShapes
import Verif.Lemmas.Grid
import Verif.Lemmas.Heap
import Verif.Lemmas.Heap2
import Verif.Lemmas.Index
import Verif.Lemmas.InnerSum
import Verif.Lemmas.InputChange
import Verif.Lemmas.InputUnit
import Verif.Lemmas.IntsRelu
import Verif.Lemmas.Iter
import Verif.Lemmas.Jvp
import Verif.Lemmas.JvpSucc
import Verif.Lemmas.Kink
import Verif.Lemmas.Local
import Verif.Lemmas.Loops
import Verif.Lemmas.LossFloor
import Verif.Lemmas.Machine
import Verif.Lemmas.MachineFits
import Verif.Lemmas.MachineFits2
import Verif.Lemmas.MachineNat
import Verif.Lemmas.MachineOps
import Verif.Lemmas.MachineQuiet
import Verif.Lemmas.MachineTrain
import Verif.Lemmas.Main
import Verif.Lemmas.MatAlg
import Verif.Lemmas.MemAccum
import Verif.Lemmas.MemCycle
import Verif.Lemmas.MemDepth
import Verif.Lemmas.MemPath
import Verif.Lemmas.Memory
import Verif.Lemmas.Minibatch
import Verif.Lemmas.Mirror
import Verif.Lemmas.Nan
import Verif.Lemmas.NanRanks
import Verif.Lemmas.NarrowView
import Verif.Lemmas.OneWorker
import Verif.Lemmas.Ops
import Verif.Lemmas.Ops3
import Verif.Lemmas.Order
import Verif.Lemmas.OutputRange
import Verif.Lemmas.Outputs
import Verif.Lemmas.Panic
import Verif.Lemmas.ParamBase
import Verif.Lemmas.ParamGraph
import Verif.Lemmas.ParamIf
import Verif.Lemmas.ParamIfRun
import Verif.Lemmas.ParamInts
import Verif.Lemmas.ParamJvp
import Verif.Lemmas.Passing
import Verif.Lemmas.Place
import Verif.Lemmas.Pool
import Verif.Lemmas.PoolBlock
import Verif.Lemmas.PoolMany
import Verif.Lemmas.Precision
import Verif.Lemmas.PrecisionRun
import Verif.Lemmas.Reach
import Verif.Lemmas.RealSums
import Verif.Lemmas.Region
import Verif.Lemmas.Relation
import Verif.Lemmas.Repeat
import Verif.Lemmas.RepeatExact
import Verif.Lemmas.RepeatWide
import Verif.Lemmas.Replay
import Verif.Lemmas.Round
import Verif.Lemmas.Rows
import Verif.Lemmas.Settle
import Verif.Lemmas.Sgd
import Verif.Lemmas.Sharp
import Verif.Lemmas.Simulate
import Verif.Lemmas.Span
import Verif.Lemmas.SplitWriter
import Verif.Lemmas.Stable
import Verif.Lemmas.Steady
import Verif.Lemmas.SteadyTrain
import Verif.Lemmas.Tangent
import Verif.Lemmas.Tangent2
import Verif.Lemmas.TanhJvp
import Verif.Lemmas.TestInt
import Verif.Lemmas.TestNan
import Verif.Lemmas.TestPrecision
import Verif.Lemmas.Text
import Verif.Lemmas.TrainChain
import Verif.Lemmas.TrainForward
import Verif.Lemmas.TrainLoss
import Verif.Lemmas.TrainOps
import Verif.Lemmas.TrainParams
import Verif.Lemmas.TrainShapes
import Verif.Lemmas.TrainStart
import Verif.Lemmas.TrainStep
import Verif.Lemmas.TrainTangent
import Verif.Lemmas.TrainTree
import Verif.Lemmas.Units
import Verif.Lemmas.UnitsWide
import Verif.Lemmas.Unread
import Verif.Lemmas.Unused
import Verif.Lemmas.Updates
import Verif.Lemmas.Views
import Verif.Lemmas.ViewsExact
import Verif.Lemmas.WfExact
import Verif.Lemmas.WfOps
import Verif.Lemmas.Which
import Verif.Lemmas.WhichTrain
import Verif.Lemmas.Windows
import Verif.Lemmas.WorkShapes
import Verif.Props.Accept
import Verif.Props.Algebra
import Verif.Props.Alone
import Verif.Props.Balance
import Verif.Props.BalanceExact
import Verif.Props.Batch
import Verif.Props.Blank
import Verif.Props.Bound
import Verif.Props.Collapse
import Verif.Props.Concurrent
import Verif.Props.ConcurrentExact
import Verif.Props.ConcurrentMany
import Verif.Props.Constant
import Verif.Props.Converge
import Verif.Props.ConvergeExact
import Verif.Props.Cost
import Verif.Props.CostExact
import Verif.Props.Debug
import Verif.Props.Delay
import Verif.Props.Descent
import Verif.Props.DescentExact
import Verif.Props.Detach
import Verif.Props.DotLoss
import Verif.Props.DotRoot
import Verif.Props.DotShapes
import Verif.Props.Elementwise
import Verif.Props.Exact2
import Verif.Props.Exact3
import Verif.Props.Feature
import Verif.Props.ForwardShapes
import Verif.Props.Generic
import Verif.Props.GradShapesExact
import Verif.Props.Gradient
import Verif.Props.Graph
import Verif.Props.Graph2
import Verif.Props.Graph3
import Verif.Props.Grid
import Verif.Props.Indexing
import Verif.Props.InputChange
import Verif.Props.InputUnit
import Verif.Props.IntsRelu
import Verif.Props.Iter
import Verif.Props.Jvp
import Verif.Props.JvpSharp
import Verif.Props.Kink
import Verif.Props.Local
import Verif.Props.Locks
import Verif.Props.LocksExact
import Verif.Props.LossFloor
import Verif.Props.Machine
import Verif.Props.Machine2
import Verif.Props.Main
import Verif.Props.MatMul
import Verif.Props.MatMulExact
import Verif.Props.MemPath
import Verif.Props.Memory
import Verif.Props.Minibatch
import Verif.Props.Mirror
import Verif.Props.Nan
import Verif.Props.NanRanks
import Verif.Props.Nn
import Verif.Props.Order
import Verif.Props.OutputRange
import Verif.Props.Outputs
import Verif.Props.Panic
import Verif.Props.Param
import Verif.Props.Passing
import Verif.Props.Place
import Verif.Props.Precision
import Verif.Props.Reach
import Verif.Props.Relation
import Verif.Props.Repeat
import Verif.Props.RepeatExact
import Verif.Props.RepeatWide
import Verif.Props.Reproduce
import Verif.Props.Round
import Verif.Props.Rows
import Verif.Props.Settle
import Verif.Props.ShapesExact
import Verif.Props.Sharp
import Verif.Props.Span
import Verif.Props.Stable
import Verif.Props.StableExact
import Verif.Props.Steady
import Verif.Props.Targets
import Verif.Props.Text
import Verif.Props.Train
import Verif.Props.Trainable
import Verif.Props.Tying
import Verif.Props.Units
import Verif.Props.UnitsExact
import Verif.Props.UnitsWide
import Verif.Props.Unread
import Verif.Props.Unused
import Verif.Props.Values
import Verif.Props.Views
import Verif.Props.ViewsExact
import Verif.Props.ViewsExact2
import Verif.Props.Windows
import Verif.Props.WorkShapes
import Verif.Axioms
import Verif.RepoTests
import Verif.SpecBound
import Verif.SpecConverge
import Verif.SpecDebug
import Verif.SpecDetach
import Verif.SpecGeneric
import Verif.SpecGrad
import Verif.SpecGradShapes
import Verif.SpecGraph
import Verif.SpecInts
import Verif.SpecKink
import Verif.SpecLocal
import Verif.SpecMachine
import Verif.SpecMain
import Verif.SpecMemory
import Verif.SpecMirror
import Verif.SpecMultiply
import Verif.SpecNan
import Verif.SpecNanRanks
import Verif.SpecNn
import Verif.SpecParam
import Verif.SpecPlace
import Verif.SpecPool
import Verif.SpecPrecision
import Verif.SpecRound
import Verif.SpecShapes
import Verif.SpecStable
import Verif.SpecSteady
import Verif.SpecText
import Verif.SpecTrain
import Verif.SpecTrainable
import Verif.SpecUnits
import Verif.SpecValue
import Verif.SpecWindow
import Verif.SpecWork
