import Verif.Py.Basic
import Verif.Py.Double
import Verif.Py.Ewm
import Verif.Py.Feature
import Verif.Py.Frame
import Verif.Py.MapE
import Verif.Py.Norm
import Verif.Py.Num
import Verif.Py.Round
import Verif.Py.Series
import Verif.Py.XF
import Verif.Py.XReal
import Verif.Model.Align
import Verif.Model.ArrivalJoin
import Verif.Model.BagObject
import Verif.Model.BagPredict
import Verif.Model.BagRandom
import Verif.Model.BagSamples
import Verif.Model.BagShared
import Verif.Model.Bagging
import Verif.Model.BetPipe
import Verif.Model.BetSizing
import Verif.Model.Bootstrapping
import Verif.Model.Csw
import Verif.Model.Cusum
import Verif.Model.DailyVol
import Verif.Model.DailyVolAny
import Verif.Model.DoubleBet
import Verif.Model.DoubleCusum
import Verif.Model.DoubleEvent
import Verif.Model.DoubleWeights
import Verif.Model.Estimator
import Verif.Model.Features
import Verif.Model.FitProtocol
import Verif.Model.Labeling
import Verif.Model.LogUniform
import Verif.Model.MissingEval
import Verif.Model.ModelSelection
import Verif.Model.Ols
import Verif.Model.OobScore
import Verif.Model.OofProba
import Verif.Model.Parallel
import Verif.Model.ParallelLoops
import Verif.Model.Paths
import Verif.Model.PipeSizer
import Verif.Model.Pipeline
import Verif.Model.Repeated
import Verif.Model.RepeatedSide
import Verif.Model.Rounded
import Verif.Model.RoundedAlign
import Verif.Model.RoundedBag
import Verif.Model.RoundedBet
import Verif.Model.RoundedBoot
import Verif.Model.RoundedCount
import Verif.Model.RoundedCsw
import Verif.Model.RoundedCusum
import Verif.Model.RoundedDailyVol
import Verif.Model.RoundedEwm
import Verif.Model.RoundedHighLow
import Verif.Model.RoundedLogUniform
import Verif.Model.RoundedMicro
import Verif.Model.RoundedOls
import Verif.Model.RoundedReturns
import Verif.Model.RoundedRoll
import Verif.Model.RoundedSignals
import Verif.Model.RoundedVar
import Verif.Model.RoundedVolume
import Verif.Model.Sadf
import Verif.Model.SampleWeights
import Verif.Model.Sdfc
import Verif.Model.SplitGen
import Verif.Model.TaFactory
import Verif.Model.Technical
import Verif.Model.Trader
import Verif.Model.TrendScan
import Verif.Model.Union
import Verif.Spec.Align
import Verif.Spec.AlignAny
import Verif.Spec.BagObject
import Verif.Spec.Bagging
import Verif.Spec.BetSizing
import Verif.Spec.Boot
import Verif.Spec.CV
import Verif.Spec.Csw
import Verif.Spec.Cusum
import Verif.Spec.DailyVol
import Verif.Spec.DoubleEvent
import Verif.Spec.EwmVar
import Verif.Spec.Features
import Verif.Spec.LabelAny
import Verif.Spec.Labeling
import Verif.Spec.MetaFeatures
import Verif.Spec.Nearest
import Verif.Spec.NoLookAhead
import Verif.Spec.Ols
import Verif.Spec.OobExact
import Verif.Spec.OofProba
import Verif.Spec.Outcome
import Verif.Spec.Parallel
import Verif.Spec.Paths
import Verif.Spec.Pipeline
import Verif.Spec.PipelineReady
import Verif.Spec.Rounded
import Verif.Spec.RoundedAlign
import Verif.Spec.RoundedBoot
import Verif.Spec.RoundedCsw
import Verif.Spec.RoundedCusum
import Verif.Spec.RoundedHighLow
import Verif.Spec.RoundedLogUniform
import Verif.Spec.RoundedOls
import Verif.Spec.RoundedReturns
import Verif.Spec.RoundedRoll
import Verif.Spec.Sadf
import Verif.Spec.SampleWeights
import Verif.Spec.Sdfc
import Verif.Spec.SdfcAny
import Verif.Spec.SplitGen
import Verif.Spec.TaFactory
import Verif.Spec.Technical
import Verif.Spec.Trader
import Verif.Spec.TrendAny
import Verif.Spec.TrendChain
import Verif.Spec.TrendDirection
import Verif.Spec.TrendScan
import Verif.Spec.Within
import Verif.Lemmas.Align
import Verif.Lemmas.ArrivalJoin
import Verif.Lemmas.Bagging
import Verif.Lemmas.BetSizing
import Verif.Lemmas.Boot
import Verif.Lemmas.CV
import Verif.Lemmas.CVPaths
import Verif.Lemmas.CVSplit
import Verif.Lemmas.Cusum
import Verif.Lemmas.DailyVol
import Verif.Lemmas.Double
import Verif.Lemmas.DoubleBet
import Verif.Lemmas.DoubleCusum
import Verif.Lemmas.DoubleEvent
import Verif.Lemmas.DoubleReturns
import Verif.Lemmas.DoubleWeights
import Verif.Lemmas.EwmVar
import Verif.Lemmas.Factor
import Verif.Lemmas.Features
import Verif.Lemmas.Labeling
import Verif.Lemmas.Nearest
import Verif.Lemmas.NoLookAhead
import Verif.Lemmas.Ols
import Verif.Lemmas.OlsChange
import Verif.Lemmas.Oob
import Verif.Lemmas.OofProba
import Verif.Lemmas.Parallel
import Verif.Lemmas.Pipeline
import Verif.Lemmas.Rounded
import Verif.Lemmas.RoundedAlign
import Verif.Lemmas.RoundedBet
import Verif.Lemmas.RoundedBoot
import Verif.Lemmas.RoundedCross
import Verif.Lemmas.RoundedCsw
import Verif.Lemmas.RoundedCusum
import Verif.Lemmas.RoundedDailyVol
import Verif.Lemmas.RoundedEwm
import Verif.Lemmas.RoundedHighLow
import Verif.Lemmas.RoundedLabel
import Verif.Lemmas.RoundedLambda
import Verif.Lemmas.RoundedLog
import Verif.Lemmas.RoundedMicro
import Verif.Lemmas.RoundedOls
import Verif.Lemmas.RoundedReturns
import Verif.Lemmas.RoundedRoll
import Verif.Lemmas.RoundedSigma
import Verif.Lemmas.RoundedSignals
import Verif.Lemmas.RoundedSpread
import Verif.Lemmas.RoundedSum
import Verif.Lemmas.RoundedVar
import Verif.Lemmas.Sadf
import Verif.Lemmas.SampleWeights
import Verif.Lemmas.SeqBoot
import Verif.Lemmas.SplitGen
import Verif.Lemmas.TaFactory
import Verif.Lemmas.Technical
import Verif.Lemmas.Trader
import Verif.Lemmas.TrendAffine
import Verif.Lemmas.TrendDirection
import Verif.Lemmas.TrendScan
import Verif.Lemmas.VarDrift
import Verif.Lemmas.Within
import Verif.Props.ActiveBets
import Verif.Props.Align
import Verif.Props.AlignAny
import Verif.Props.AlignSteps
import Verif.Props.AnyTimes
import Verif.Props.ArrivalJoin
import Verif.Props.ArrivalPipe
import Verif.Props.BagObject
import Verif.Props.BagPredict
import Verif.Props.BagRandom
import Verif.Props.BagSamples
import Verif.Props.BagShared
import Verif.Props.BagStable
import Verif.Props.BagSubset
import Verif.Props.Bagging
import Verif.Props.BaggingWeights
import Verif.Props.BetClasses
import Verif.Props.BetOrder
import Verif.Props.BetPipe
import Verif.Props.BetSizing
import Verif.Props.BreakUnits
import Verif.Props.CV
import Verif.Props.CVChange
import Verif.Props.CVExact
import Verif.Props.CVPaths
import Verif.Props.Causal
import Verif.Props.Chain
import Verif.Props.ChainAny
import Verif.Props.CrossAny
import Verif.Props.Csw
import Verif.Props.CswAny
import Verif.Props.Cusum
import Verif.Props.CusumMoves
import Verif.Props.CusumRestart
import Verif.Props.DailyVol
import Verif.Props.DailyVolAny
import Verif.Props.DoubleBet
import Verif.Props.DoubleCusum
import Verif.Props.DoubleEvent
import Verif.Props.DoubleWeights
import Verif.Props.Estimator
import Verif.Props.Features
import Verif.Props.FitProtocol
import Verif.Props.Invalid
import Verif.Props.InvalidMore
import Verif.Props.JointDraw
import Verif.Props.KnownAny
import Verif.Props.KnownAtEnd
import Verif.Props.LabelAny
import Verif.Props.LabelAnyMore
import Verif.Props.LabelOrder
import Verif.Props.Labeling
import Verif.Props.LogUniform
import Verif.Props.LongShort
import Verif.Props.Memory
import Verif.Props.MetaFeatures
import Verif.Props.MetaOwn
import Verif.Props.Microstructure
import Verif.Props.MissingEval
import Verif.Props.MoreEvents
import Verif.Props.NoLookAhead
import Verif.Props.NoLookAheadModels
import Verif.Props.Ols
import Verif.Props.Oob
import Verif.Props.OobExact
import Verif.Props.OobScore
import Verif.Props.OofClasses
import Verif.Props.OofProba
import Verif.Props.Outcome
import Verif.Props.OwnSizer
import Verif.Props.Parallel
import Verif.Props.Paths
import Verif.Props.Pipeline
import Verif.Props.PipelineReady
import Verif.Props.RepeatedAlign
import Verif.Props.RepeatedData
import Verif.Props.RepeatedSide
import Verif.Props.Rounded
import Verif.Props.RoundedAlign
import Verif.Props.RoundedBag
import Verif.Props.RoundedBeckers
import Verif.Props.RoundedBet
import Verif.Props.RoundedBoot
import Verif.Props.RoundedCount
import Verif.Props.RoundedCross
import Verif.Props.RoundedCsw
import Verif.Props.RoundedCusum
import Verif.Props.RoundedDailyVol
import Verif.Props.RoundedEwm
import Verif.Props.RoundedFlat
import Verif.Props.RoundedHighLow
import Verif.Props.RoundedImpact
import Verif.Props.RoundedLog
import Verif.Props.RoundedLogUniform
import Verif.Props.RoundedMicro
import Verif.Props.RoundedOls
import Verif.Props.RoundedReturns
import Verif.Props.RoundedRoll
import Verif.Props.RoundedSignals
import Verif.Props.RoundedSpread
import Verif.Props.RoundedVar
import Verif.Props.RoundedVolume
import Verif.Props.RoundedWeights
import Verif.Props.Sadf
import Verif.Props.SadfAny
import Verif.Props.SadfHistory
import Verif.Props.SadfOrigin
import Verif.Props.SampleWeights
import Verif.Props.Sdfc
import Verif.Props.SdfcAny
import Verif.Props.SeqBootstrap
import Verif.Props.Signals
import Verif.Props.SplitGen
import Verif.Props.TaFactory
import Verif.Props.Technical
import Verif.Props.Timestamp
import Verif.Props.Trader
import Verif.Props.TraderNoLookAhead
import Verif.Props.TraderOutcome
import Verif.Props.TrainingSets
import Verif.Props.TrendAny
import Verif.Props.TrendChain
import Verif.Props.TrendDirection
import Verif.Props.TrendScan
import Verif.Props.TrendWindow
import Verif.Props.Union
import Verif.Props.Uniqueness
import Verif.Props.UniquenessChange
import Verif.Props.Units
import Verif.Props.Volatility
import Verif.Props.VpinAny
import Verif.Props.WeightsKnown
import Verif.Props.Wider
import Verif.Props.WiderAny
import Verif.Props.Within
import Verif.Props.ZScore
import Verif.Check.Instances
import Verif.Check.InstancesMore
import Verif.Check.InstancesNumbers
import Verif.Check.InstancesPipe
import Verif.Check.InstancesRounding
import Verif.Check.InstancesSeries
import Verif.Check.InstancesStrategy
import Verif.Check.ProjectTests
