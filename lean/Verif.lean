import Verif.Lemmas.Aos
import Verif.Lemmas.AosAhead
import Verif.Lemmas.AosOwn
import Verif.Lemmas.AosRun
import Verif.Lemmas.Artificial
import Verif.Lemmas.Bagging
import Verif.Lemmas.Balanced
import Verif.Lemmas.Boost
import Verif.Lemmas.Clustering
import Verif.Lemmas.Crash
import Verif.Lemmas.CrashData
import Verif.Lemmas.CrashFirst
import Verif.Lemmas.Csv
import Verif.Lemmas.Data
import Verif.Lemmas.DataCopy
import Verif.Lemmas.DataInsert
import Verif.Lemmas.DataMore
import Verif.Lemmas.DataRemove
import Verif.Lemmas.DataUpdate
import Verif.Lemmas.Dll
import Verif.Lemmas.Double
import Verif.Lemmas.DoubleDsm
import Verif.Lemmas.DoubleNear
import Verif.Lemmas.DoubleSmo
import Verif.Lemmas.DoubleSmoTrain
import Verif.Lemmas.DoubleSum
import Verif.Lemmas.Dtoa
import Verif.Lemmas.Features
import Verif.Lemmas.Gnuplot
import Verif.Lemmas.GnuplotFiles
import Verif.Lemmas.IMA
import Verif.Lemmas.ImaDual
import Verif.Lemmas.KFold
import Verif.Lemmas.Kernel
import Verif.Lemmas.KernelOwner
import Verif.Lemmas.KernelPSD
import Verif.Lemmas.KernelSep
import Verif.Lemmas.Metric
import Verif.Lemmas.Neighbors
import Verif.Lemmas.Perceptron
import Verif.Lemmas.Point
import Verif.Lemmas.PointAlias
import Verif.Lemmas.Readers
import Verif.Lemmas.Regressor
import Verif.Lemmas.RfeCv
import Verif.Lemmas.Sampling
import Verif.Lemmas.Select
import Verif.Lemmas.Smo
import Verif.Lemmas.SmoLoop
import Verif.Lemmas.SmoStep
import Verif.Lemmas.Split
import Verif.Lemmas.SplitClass
import Verif.Lemmas.SplitLoop
import Verif.Lemmas.Stats
import Verif.Lemmas.Subspace
import Verif.Lemmas.Text
import Verif.Lemmas.ThreadPool
import Verif.Lemmas.ThreadPoolLive
import Verif.Lemmas.TrainTest
import Verif.Lemmas.Util
import Verif.Lemmas.Validation
import Verif.Lemmas.Visual
import Verif.Lemmas.Voting
import Verif.Model.Aos
import Verif.Model.AosAhead
import Verif.Model.AosOwn
import Verif.Model.AosRun
import Verif.Model.AosShapes
import Verif.Model.AutoVote
import Verif.Model.Bagging
import Verif.Model.Balanced
import Verif.Model.Basic
import Verif.Model.Batch
import Verif.Model.BoostTrain
import Verif.Model.Clustering
import Verif.Model.Committee
import Verif.Model.Crash
import Verif.Model.Data
import Verif.Model.DataEdit
import Verif.Model.DataMore
import Verif.Model.DataSelf
import Verif.Model.DistanceMatrix
import Verif.Model.Double
import Verif.Model.DoubleBalanced
import Verif.Model.DoubleBoost
import Verif.Model.DoubleCentres
import Verif.Model.DoubleCommittee
import Verif.Model.DoubleDsm
import Verif.Model.DoubleDtoa
import Verif.Model.DoubleDual
import Verif.Model.DoubleFixed
import Verif.Model.DoubleFixedDual
import Verif.Model.DoubleIma
import Verif.Model.DoubleImaDual
import Verif.Model.DoubleKMeans
import Verif.Model.DoubleKernel
import Verif.Model.DoubleKnn
import Verif.Model.DoubleKnnReg
import Verif.Model.DoubleLms
import Verif.Model.DoubleMetric
import Verif.Model.DoubleNorm
import Verif.Model.DoublePerc
import Verif.Model.DoubleRatio
import Verif.Model.DoubleScore
import Verif.Model.DoubleSizes
import Verif.Model.DoubleSmo
import Verif.Model.DoubleStats
import Verif.Model.DoubleText
import Verif.Model.DoubleValid
import Verif.Model.DoubleVote
import Verif.Model.Dtoa
import Verif.Model.Ensemble
import Verif.Model.Features
import Verif.Model.FoldRun
import Verif.Model.FracLabel
import Verif.Model.Gnuplot
import Verif.Model.IMA
import Verif.Model.ImaDual
import Verif.Model.IntDll
import Verif.Model.KeptExpr
import Verif.Model.Kernel
import Verif.Model.KernelCall
import Verif.Model.KernelOwner
import Verif.Model.Lifecycle
import Verif.Model.Load
import Verif.Model.Metric
import Verif.Model.MultiClass
import Verif.Model.Neighbors
import Verif.Model.Perceptron
import Verif.Model.Point
import Verif.Model.PointAlias
import Verif.Model.PointReal
import Verif.Model.PoolClient
import Verif.Model.PoolCounts
import Verif.Model.Print
import Verif.Model.Random
import Verif.Model.RandomInit
import Verif.Model.Readers
import Verif.Model.Regressor
import Verif.Model.Remainder
import Verif.Model.RfeCv
import Verif.Model.Sampling
import Verif.Model.Seeds
import Verif.Model.Select
import Verif.Model.Smo
import Verif.Model.Split
import Verif.Model.Stats
import Verif.Model.SurfaceCmd
import Verif.Model.SyncStream
import Verif.Model.Text
import Verif.Model.ThreadPool
import Verif.Model.TimeLimit
import Verif.Model.Validation
import Verif.Model.ValidationMore
import Verif.Model.Visual
import Verif.Model.Voting
import Verif.Props.Agree
import Verif.Props.Aos
import Verif.Props.AosAhead
import Verif.Props.AosMargin
import Verif.Props.AosOwn
import Verif.Props.AosRun
import Verif.Props.AosShapes
import Verif.Props.AutoVote
import Verif.Props.Bagging
import Verif.Props.Balanced
import Verif.Props.Batch
import Verif.Props.Boost
import Verif.Props.BoostTrain
import Verif.Props.Clustering
import Verif.Props.Committee
import Verif.Props.Crash
import Verif.Props.CrashData
import Verif.Props.CrashFirst
import Verif.Props.Csv
import Verif.Props.DataCopy
import Verif.Props.DataEdit
import Verif.Props.DataFrom
import Verif.Props.DataIndex
import Verif.Props.DataInsert
import Verif.Props.DataMore
import Verif.Props.DataRemove
import Verif.Props.DataSelf
import Verif.Props.DistanceMatrix
import Verif.Props.Distances
import Verif.Props.Divergence
import Verif.Props.DoubleBalanced
import Verif.Props.DoubleBoost
import Verif.Props.DoubleBoostRound
import Verif.Props.DoubleCentres
import Verif.Props.DoubleCommittee
import Verif.Props.DoubleDiv
import Verif.Props.DoubleDsm
import Verif.Props.DoubleDtoa
import Verif.Props.DoubleDual
import Verif.Props.DoubleFixed
import Verif.Props.DoubleFixedDual
import Verif.Props.DoubleGauss
import Verif.Props.DoubleIma
import Verif.Props.DoubleImaDual
import Verif.Props.DoubleKMeans
import Verif.Props.DoubleKernel
import Verif.Props.DoubleKnn
import Verif.Props.DoubleKnnReg
import Verif.Props.DoubleLms
import Verif.Props.DoubleMetric
import Verif.Props.DoubleNorm
import Verif.Props.DoublePerc
import Verif.Props.DoubleRatio
import Verif.Props.DoubleScore
import Verif.Props.DoubleSizes
import Verif.Props.DoubleSmo
import Verif.Props.DoubleStats
import Verif.Props.DoubleText
import Verif.Props.DoubleValid
import Verif.Props.DoubleVote
import Verif.Props.Dtoa
import Verif.Props.Ensemble
import Verif.Props.Features
import Verif.Props.FixedEval
import Verif.Props.FoldRun
import Verif.Props.FracLabel
import Verif.Props.Gnuplot
import Verif.Props.GnuplotFiles
import Verif.Props.IMA
import Verif.Props.IdHistory
import Verif.Props.ImaDual
import Verif.Props.KeptExpr
import Verif.Props.Kernel
import Verif.Props.KernelCall
import Verif.Props.KernelOwner
import Verif.Props.Lifecycle
import Verif.Props.Load
import Verif.Props.Metric
import Verif.Props.MultiClass
import Verif.Props.Neighbors
import Verif.Props.Perceptron
import Verif.Props.Point
import Verif.Props.PointAlias
import Verif.Props.PoolClient
import Verif.Props.PoolCounts
import Verif.Props.Print
import Verif.Props.Random
import Verif.Props.RandomInit
import Verif.Props.Readers
import Verif.Props.Regressor
import Verif.Props.Remainder
import Verif.Props.RfeCv
import Verif.Props.Sampling
import Verif.Props.Seeds
import Verif.Props.Select
import Verif.Props.Smo
import Verif.Props.SmoAnswers
import Verif.Props.Split
import Verif.Props.Stats
import Verif.Props.Surface
import Verif.Props.SyncStream
import Verif.Props.Text
import Verif.Props.ThreadPool
import Verif.Props.TimeLimit
import Verif.Props.TwoFolds
import Verif.Props.Validation
import Verif.Props.ValidationMore
import Verif.Props.VisualFiles
import Verif.Props.VisualMore
import Verif.Props.VisualPlots
import Verif.Props.VisualState
import Verif.Props.Voting
import Verif.Props.WrapperObjects
import Verif.Spec.Aos
import Verif.Spec.AosRun
import Verif.Spec.AosShapes
import Verif.Spec.AutoVote
import Verif.Spec.Bagging
import Verif.Spec.Batch
import Verif.Spec.Clustering
import Verif.Spec.Crash
import Verif.Spec.Data
import Verif.Spec.DataIndex
import Verif.Spec.DataMore
import Verif.Spec.DistanceMatrix
import Verif.Spec.Distances
import Verif.Spec.Dll
import Verif.Spec.DoubleDiv
import Verif.Spec.DoubleVote
import Verif.Spec.Ensemble
import Verif.Spec.FoldRun
import Verif.Spec.FracLabel
import Verif.Spec.Gnuplot
import Verif.Spec.ImaDual
import Verif.Spec.KeptExpr
import Verif.Spec.Kernel
import Verif.Spec.KernelOwner
import Verif.Spec.Lifecycle
import Verif.Spec.Load
import Verif.Spec.Metric
import Verif.Spec.MultiClass
import Verif.Spec.Neighbors
import Verif.Spec.Perceptron
import Verif.Spec.Point
import Verif.Spec.PointAlias
import Verif.Spec.PoolClient
import Verif.Spec.PoolCounts
import Verif.Spec.Print
import Verif.Spec.Readers
import Verif.Spec.Regressor
import Verif.Spec.RfeCv
import Verif.Spec.Sampling
import Verif.Spec.Seeds
import Verif.Spec.Select
import Verif.Spec.Smo
import Verif.Spec.Stats
import Verif.Spec.Surface
import Verif.Spec.SyncStream
import Verif.Spec.Text
import Verif.Spec.ThreadPool
import Verif.Spec.Validation
import Verif.Spec.ValidationMore
import Verif.Spec.Visual
import Verif.Spec.Voting
