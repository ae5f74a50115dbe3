import Verif.Basic
import Verif.Lemmas.Acquisition
import Verif.Lemmas.Basic
import Verif.Lemmas.Bounds
import Verif.Lemmas.Checks
import Verif.Lemmas.DesignSearch
import Verif.Lemmas.Dip
import Verif.Lemmas.Discrepancy
import Verif.Lemmas.Exhaustive
import Verif.Lemmas.Generator
import Verif.Lemmas.GpPosterior
import Verif.Lemmas.Grid
import Verif.Lemmas.Halton
import Verif.Lemmas.HaltonRun
import Verif.Lemmas.Hartmann
import Verif.Lemmas.HartmannBound
import Verif.Lemmas.HartmannUnique
import Verif.Lemmas.HedgeRegret
import Verif.Lemmas.KernelNorm
import Verif.Lemmas.Kernels
import Verif.Lemmas.Layout
import Verif.Lemmas.Learning
import Verif.Lemmas.Lhs
import Verif.Lemmas.Live
import Verif.Lemmas.LiveCopy
import Verif.Lemmas.LiveRun
import Verif.Lemmas.Lucky
import Verif.Lemmas.Minimize
import Verif.Lemmas.ObjectiveUnits
import Verif.Lemmas.OnePoint
import Verif.Lemmas.OneStep
import Verif.Lemmas.Optimizer
import Verif.Lemmas.OptimizerAsk
import Verif.Lemmas.OptimizerRun
import Verif.Lemmas.OptimizerSound
import Verif.Lemmas.Pointwise
import Verif.Lemmas.PositiveKernels
import Verif.Lemmas.PureExploration
import Verif.Lemmas.RandomSearch
import Verif.Lemmas.Reach
import Verif.Lemmas.Refit
import Verif.Lemmas.Relabel
import Verif.Lemmas.Rewriting
import Verif.Lemmas.RoundTrip
import Verif.Lemmas.RoundedBox
import Verif.Lemmas.RoundedCopy
import Verif.Lemmas.RoundedMinimize
import Verif.Lemmas.RoundedRun
import Verif.Lemmas.Rounding
import Verif.Lemmas.RoundingDims
import Verif.Lemmas.SearchCV
import Verif.Lemmas.Seen
import Verif.Lemmas.Shape
import Verif.Lemmas.Sieve
import Verif.Lemmas.Sobol
import Verif.Lemmas.SobolAlgebra
import Verif.Lemmas.Space
import Verif.Lemmas.UnitColumns
import Verif.Lemmas.UnitCube
import Verif.Lemmas.Units
import Verif.Model.Acquisition
import Verif.Model.AcquisitionFloat
import Verif.Model.AskWarning
import Verif.Model.Benchmarks
import Verif.Model.BinaryFloat
import Verif.Model.Callbacks
import Verif.Model.DiagonalLimits
import Verif.Model.DimInit
import Verif.Model.Estimators
import Verif.Model.Exact
import Verif.Model.ExampleWorld
import Verif.Model.ExpectedMinimum
import Verif.Model.ForestFloat
import Verif.Model.GaussianProcess
import Verif.Model.GbrtFit
import Verif.Model.GbrtFloat
import Verif.Model.Generators
import Verif.Model.GpPlot
import Verif.Model.Grid
import Verif.Model.Halton
import Verif.Model.Hamming
import Verif.Model.Hartmann
import Verif.Model.KernelOps
import Verif.Model.Kernels
import Verif.Model.Learning
import Verif.Model.Lhs
import Verif.Model.Minimize
import Verif.Model.Optimizer
import Verif.Model.PairPlots
import Verif.Model.PartialDependence
import Verif.Model.Plots
import Verif.Model.Reporting
import Verif.Model.Sampler
import Verif.Model.Sampling
import Verif.Model.SearchCV
import Verif.Model.Sobol
import Verif.Model.Space
import Verif.Model.SpaceOps
import Verif.Model.Store
import Verif.Model.Transformers
import Verif.Model.Utils
import Verif.Model.Wrappers
import Verif.Props.Acquisition
import Verif.Props.AcquisitionModels
import Verif.Props.AcquisitionShapes
import Verif.Props.AskAnswers
import Verif.Props.AskWarning
import Verif.Props.BatchNew
import Verif.Props.Benchmarks
import Verif.Props.BestCandidate
import Verif.Props.Callbacks
import Verif.Props.Checkpoint
import Verif.Props.Constructor
import Verif.Props.DeferredFit
import Verif.Props.DesignSearch
import Verif.Props.DiagonalLimits
import Verif.Props.DimInit
import Verif.Props.Discrepancy
import Verif.Props.Encoders
import Verif.Props.EvaluatedInSpace
import Verif.Props.Exhaustive
import Verif.Props.ExpectedMinimum
import Verif.Props.Exploration
import Verif.Props.Figures
import Verif.Props.FloatAcquisition
import Verif.Props.FloatDesigns
import Verif.Props.FloatDistance
import Verif.Props.FloatEi
import Verif.Props.FloatForest
import Verif.Props.FloatForestRange
import Verif.Props.FloatGbrt
import Verif.Props.FloatGenerators
import Verif.Props.FloatHedge
import Verif.Props.FloatLie
import Verif.Props.FloatPerSecond
import Verif.Props.FloatRuns
import Verif.Props.FloatStoppers
import Verif.Props.ForestRange
import Verif.Props.GaussianProcess
import Verif.Props.GbrtFit
import Verif.Props.Generation
import Verif.Props.Generators
import Verif.Props.GpCertainty
import Verif.Props.GpFar
import Verif.Props.GpGradient
import Verif.Props.GpLinear
import Verif.Props.GpNoise
import Verif.Props.GpOrder
import Verif.Props.GpPlot
import Verif.Props.GpPosterior
import Verif.Props.GpPrior
import Verif.Props.GpRepeats
import Verif.Props.Grid
import Verif.Props.GridFactorial
import Verif.Props.Halton
import Verif.Props.HaltonBoxes
import Verif.Props.Hamming
import Verif.Props.Hedge
import Verif.Props.HedgeGains
import Verif.Props.HedgeRegret
import Verif.Props.KernelCovariance
import Verif.Props.KernelNorm
import Verif.Props.KernelOps
import Verif.Props.Kernels
import Verif.Props.Kinds
import Verif.Props.Lbfgs
import Verif.Props.LcbCertificate
import Verif.Props.Learning
import Verif.Props.Lhs
import Verif.Props.LhsAdditive
import Verif.Props.LhsUniform
import Verif.Props.LhsValues
import Verif.Props.Liveness
import Verif.Props.Lucky
import Verif.Props.Minimize
import Verif.Props.MinimizeArgs
import Verif.Props.MinimizeIsRun
import Verif.Props.MinimizeRuns
import Verif.Props.MinimizeRunsRefuted
import Verif.Props.MinimizeSettings
import Verif.Props.MixedLabels
import Verif.Props.Naming
import Verif.Props.NoiseUnits
import Verif.Props.ObjectiveUnits
import Verif.Props.ObjectiveUnitsEi
import Verif.Props.OneStep
import Verif.Props.OptimizerAsk
import Verif.Props.OptimizerCopy
import Verif.Props.OptimizerHistory
import Verif.Props.OptimizerInSpace
import Verif.Props.PairPlots
import Verif.Props.PartialDependence
import Verif.Props.PerSecond
import Verif.Props.PerSecondUnits
import Verif.Props.Pitfalls
import Verif.Props.Plots
import Verif.Props.PlotsReturn
import Verif.Props.Pointwise
import Verif.Props.PureExploration
import Verif.Props.RandomSearch
import Verif.Props.Recovery
import Verif.Props.Refit
import Verif.Props.Refusals
import Verif.Props.RefusedKinds
import Verif.Props.RepeatCall
import Verif.Props.Reporting
import Verif.Props.Rewriting
import Verif.Props.Rounding
import Verif.Props.Run
import Verif.Props.SamplerLaw
import Verif.Props.Sampling
import Verif.Props.SamplingMany
import Verif.Props.SearchBest
import Verif.Props.SearchCV
import Verif.Props.SearchRate
import Verif.Props.ShiftedSobol
import Verif.Props.Sobol
import Verif.Props.SobolAll
import Verif.Props.SobolBudget
import Verif.Props.SobolNet
import Verif.Props.SobolWarning
import Verif.Props.SpaceChecks
import Verif.Props.SpaceMembership
import Verif.Props.SpaceOps
import Verif.Props.SpaceRoundTrip
import Verif.Props.StartsDesign
import Verif.Props.StartsHelp
import Verif.Props.StopFirst
import Verif.Props.Store
import Verif.Props.Suggestion
import Verif.Props.SuggestionBounds
import Verif.Props.Units
import Verif.Props.UnitsRun
import Verif.Spec.Acquisition
import Verif.Spec.Discrepancy
import Verif.Spec.Kernels
import Verif.Spec.Learning
import Verif.Spec.Lucky
import Verif.Spec.Minimize
import Verif.Spec.ObjectiveUnits
import Verif.Spec.Optimizer
import Verif.Spec.PureExploration
import Verif.Spec.Refit
import Verif.Spec.Rewriting
import Verif.Spec.Rounding
import Verif.Spec.Sampler
import Verif.Spec.SearchCV
import Verif.Spec.Space
import Verif.Spec.Units
