import Verif.Props.Weights
import Verif.Props.Mixture
import Verif.Props.Dice
import Verif.Props.SampleCount
import Verif.Props.Clip
import Verif.Props.Arith
import Verif.Props.Pipe
import Verif.Props.ClipFn
import Verif.Props.Calls
import Verif.Props.Support
import Verif.Props.Seed
import Verif.Props.SampleCache
import Verif.Props.Multicore
import Verif.Props.Correlation
import Verif.Props.TargetScores
import Verif.Props.CorrelationExamples
import Verif.Props.JointDraw
import Verif.Props.Correlate
import Verif.Props.DistTree
import Verif.Props.Params
import Verif.Props.ParamsMoments
import Verif.Props.ParamsTotal
import Verif.Props.Pert
import Verif.Props.Constructors
import Verif.Props.Sampleable
import Verif.Props.Bayesnet
import Verif.Props.BayesnetFiles
import Verif.Props.Update
import Verif.Props.UpdateWeight
import Verif.Props.AverageLaw
import Verif.Props.Odds
import Verif.Props.Forecast
import Verif.Props.Event
import Verif.Props.TInterval
import Verif.Props.Percentiles
import Verif.Props.WeightedPercentiles
import Verif.Props.CredibleIntervals
import Verif.Props.Buckets
import Verif.Props.DistMath
import Verif.Props.SampleHeap
import Verif.Props.Denote
import Verif.Props.EventLaw
import Verif.Props.Estimates
import Verif.Props.FnSample
import Verif.Props.SampleHistory
import Verif.Props.PrintedForm
import Verif.Props.Diversity
import Verif.Props.ExplodingDice
import Verif.Props.HashKeys
import Verif.Props.Aliasing
import Verif.Props.CorrelatedLaw
import Verif.Props.CorrelatedLawExamples
import Verif.Model.CacheFileSteps
import Verif.Spec.CacheFiles
import Verif.Lemmas.CacheFiles
import Verif.Props.CacheFiles
import Verif.Model.KellyDate
import Verif.Props.KellyDate
import Verif.Lemmas.ExplodeDraw
import Verif.Lemmas.Patience
import Verif.Props.MeanLimit
import Verif.Props.CorrelatedCount
import Verif.Props.SampleableMix
import Verif.Props.CompareLaw
import Verif.Props.TIntervalLaw
import Verif.Lemmas.BoundsLaw
import Verif.Lemmas.AverageLimit
import Verif.Spec.Moments
import Verif.Props.BoundsLaw
import Verif.Props.Moments
import Verif.Props.ConditionalMean
import Verif.Lemmas.MixRemainder
import Verif.Lemmas.MixFailure
import Verif.Model.MixtureObj
import Verif.Model.AverageObj
import Verif.Props.MixtureRemainder
import Verif.Spec.SameSamples
import Verif.Spec.UniformLaw
import Verif.Lemmas.UniformLaw
import Verif.Props.Algebra
import Verif.Props.CorrelatedSums
import Verif.Props.CacheBounds
import Verif.Model.OneIn
import Verif.Props.OneIn
import Verif.Model.DiscreteDists
import Verif.Props.DiscreteDists
import Verif.Props.MixtureWhole
import Verif.Props.WorkerStreams
import Verif.Props.ScoreRange
import Verif.Props.BlockedRuns
import Verif.Props.CorrelationMore
import Verif.Props.CopiesLinked
import Verif.Spec.NumpyLaws
import Verif.Spec.ExpectedValue
import Verif.Lemmas.LawMoments
import Verif.Lemmas.LawMomentsDiscrete
import Verif.Lemmas.LawMomentsBounded
import Verif.Lemmas.LawSource
import Verif.Props.ExpectedValue
import Verif.Props.Families
import Verif.Spec.Accuracy
import Verif.Lemmas.NormalLimit
import Verif.Props.Accuracy
import Verif.Spec.Chances
import Verif.Lemmas.LawChances
import Verif.Props.Chances
import Verif.Spec.Outcomes
import Verif.Lemmas.FiniteLaw
import Verif.Props.Outcomes
import Verif.Lemmas.PointsLaw
import Verif.Lemmas.TextLaw
import Verif.Spec.EventTree
import Verif.Lemmas.EventTree
import Verif.Props.EventTree
import Verif.Props.RoundedWeights
import Verif.Props.RoundedMixture
import Verif.Props.RoundedHelpers
import Verif.Props.RoundedDists
import Verif.Lemmas.UniformFrequency
import Verif.Props.AllPercentiles
import Verif.Spec.Linked
import Verif.Lemmas.Linked
import Verif.Props.CommonRandom
import Verif.Lemmas.CoresLaw
import Verif.Props.CoresAccuracy
import Verif.Props.CoresCorrelated
import Verif.Lemmas.CoresEvents
import Verif.Props.CoresEvents
import Verif.Model.HeapSample
import Verif.Spec.HeapObjects
import Verif.Lemmas.HeapSample
import Verif.Lemmas.HeapRefine
import Verif.Lemmas.HeapStuck
import Verif.Lemmas.HeapCorrelate
import Verif.Props.HeapSample
import Verif.Spec.Prefix
import Verif.Lemmas.Prefix
import Verif.Props.Prefix
import Verif.Props.RelativeZero
import Verif.Spec.Special
import Verif.Model.Special
import Verif.Model.SpecialSample
import Verif.Lemmas.Special
import Verif.Props.Special
import Verif.Props.SpecialSample
import Verif.Model.Verbose
import Verif.Lemmas.Verbose
import Verif.Props.Progress
import Verif.Model.RoundedPercentiles
import Verif.Lemmas.FloatLerp
import Verif.Lemmas.FloatPercentiles
import Verif.Props.RoundedPercentiles
import Verif.Model.RoundedMean
import Verif.Lemmas.FloatMean
import Verif.Props.RoundedMean
import Verif.Model.RoundedSample
import Verif.Spec.Accumulated
import Verif.Props.RoundedSample
import Verif.Model.BayesMessages
import Verif.Spec.Messages
import Verif.Props.BayesMessages
import Verif.Model.SampleMessages
import Verif.Props.SampleMessages
import Verif.Spec.Machine
import Verif.Model.MachineSample
import Verif.Props.MachineSample
import Verif.Spec.WideNumbers
import Verif.Model.WideSample
import Verif.Props.WideSample
import Verif.Props.WideCores
import Verif.Spec.Posterior
import Verif.Model.UpdateObj
import Verif.Props.BayesTheorem
import Verif.Props.PosteriorSample
import Verif.Spec.Experiment
import Verif.Props.Experiment
import Verif.Props.Pooling
import Verif.Spec.RepeatedBets
import Verif.Props.RepeatedBets
import Verif.Props.ExperimentCores
import Verif.Spec.Calendar
import Verif.Model.DateText
import Verif.Props.DateText
import Verif.Lemmas.CoresBounds
import Verif.Props.CoresBounds
import Verif.Props.BayesnetCoherent
import Verif.Spec.PrintedCall
import Verif.Model.CallText
import Verif.Props.ReadBack
import Verif.Props.PercentileUnits
import Verif.Spec.EventFile
import Verif.Model.MsgPack
import Verif.Lemmas.MsgPack
import Verif.Props.EventFile
import Verif.Spec.SampleFile
import Verif.Model.NpyBytes
import Verif.Lemmas.NpyBytes
import Verif.Props.SampleFile
import Verif.Props.CallBounds
import Verif.Props.FiniteFamilies
import Verif.Spec.ElemFns
import Verif.Model.RoundedGeo
import Verif.Lemmas.FloatGeo
import Verif.Props.RoundedGeo
import Verif.Model.RoundedGrowth
import Verif.Props.RoundedGrowth
import Verif.Props.FailedCalls
import Verif.Model.RoundedLognorm
import Verif.Props.RoundedLognorm
import Verif.Model.RoundedSharpe
import Verif.Props.RoundedSharpe
import Verif.Model.RoundedBuckets
import Verif.Props.RoundedBuckets
import Verif.Model.SciText
import Verif.Spec.SciText
import Verif.Props.SciText
import Verif.Model.RoundedOneIn
import Verif.Props.RoundedOneIn
import Verif.Model.RoundedLaplace
import Verif.Props.RoundedLaplace
import Verif.Model.RoundedWeighted
import Verif.Props.RoundedWeighted
import Verif.Model.RoundedUpdate
import Verif.Props.RoundedUpdate
import Verif.Props.RoundedLeftover
import Verif.Model.OneInDigits
import Verif.Spec.OneInDigits
import Verif.Props.OneInDigits
import Verif.Model.RoundedRound
import Verif.Props.RoundedRound
import Verif.Model.Quotient
import Verif.Spec.Quotient
import Verif.Props.Quotient
import Verif.Model.RoundedCuts
import Verif.Props.RoundedCuts
import Verif.Model.RoundedTables
import Verif.Props.RoundedTables
import Verif.Spec.Double
import Verif.Model.DoubleWeights
import Verif.Lemmas.Double
import Verif.Props.DoubleWeights
import Verif.Model.DoubleNorm
import Verif.Props.DoubleNorm
import Verif.Spec.Magnitude
import Verif.Model.DoubleSample
import Verif.Props.DoubleSample
import Verif.Model.CompensatedSum
import Verif.Lemmas.CompensatedSum
import Verif.Props.CompensatedSum
import Verif.Model.DoubleUpdate
import Verif.Props.DoubleUpdate
import Verif.Props.DoubleModels
import Verif.Model.DoubleBayes
import Verif.Props.DoubleBayes
import Verif.Model.DoubleOdds
import Verif.Props.DoubleOdds
import Verif.Model.DoubleDraws
import Verif.Props.DoubleDraws
import Verif.Model.DoubleKelly
import Verif.Props.DoubleKelly
import Verif.Model.DoublePercentiles
import Verif.Props.DoublePercentiles
import Verif.Model.DoubleMean
import Verif.Props.DoubleMean
import Verif.Model.DoubleFrequency
import Verif.Props.DoubleFrequency
import Verif.Props.DoubleFinite
