import Verif.AnySetter
import Verif.AnySetterProps
import Verif.Archive
import Verif.Async
import Verif.AsyncProps
import Verif.Basic
import Verif.BlockDiagonal
import Verif.BlockDiagonalProps
import Verif.BlockRcond
import Verif.BlockRcondProps
import Verif.BlockUtils
import Verif.BlockUtilsProps
import Verif.BoxPolynomials
import Verif.Bures
import Verif.Callers
import Verif.CallersProps
import Verif.Chebyshev
import Verif.ChebyshevProps
import Verif.ChiSquaredLaw
import Verif.ChiSquaredLawProps
import Verif.Conditional
import Verif.ConditionalProps
import Verif.CovComposeProps
import Verif.CovMatrix
import Verif.CovMatrixProps
import Verif.CovTree
import Verif.CovTreeProps
import Verif.CrossValidation
import Verif.CrossValidationProps
import Verif.Csv
import Verif.CsvProps
import Verif.CvLaw
import Verif.CvLawProps
import Verif.DatasetProps
import Verif.Dbl
import Verif.DistanceKernels
import Verif.Distances
import Verif.DistancesProps
import Verif.Distribution
import Verif.DistributionProps
import Verif.EigenDirections
import Verif.EigenDirectionsProps
import Verif.EigenUtils
import Verif.EigenUtilsProps
import Verif.EvidenceProps
import Verif.FitLifetime
import Verif.FitLifetimeProps
import Verif.Folds
import Verif.FoldsProps
import Verif.GammaDensity
import Verif.GaussAbs
import Verif.GaussianSpec
import Verif.Gp
import Verif.GpProps
import Verif.Graph
import Verif.GraphSpec
import Verif.GroupedOps
import Verif.GroupedOpsProps
import Verif.HandlersProps
import Verif.HeldOut
import Verif.HeldOutProps
import Verif.IncompleteGammaProps
import Verif.IncompleteGammaTail
import Verif.IncompleteGammaWhole
import Verif.IncompleteGammaWholeProps
import Verif.Indexing
import Verif.IndexingLemmas
import Verif.IndexingProps
import Verif.KernelMetrics
import Verif.KernelMetricsProps
import Verif.Kernels
import Verif.KernelsProps
import Verif.KruskalProps
import Verif.LastPartsProps
import Verif.Likelihood
import Verif.LikelihoodProps
import Verif.LinAlg
import Verif.LinAlgProps
import Verif.LinComb
import Verif.LinCombProps
import Verif.LogScore
import Verif.LoosePartsProps
import Verif.MapCompare
import Verif.MapCompareProps
import Verif.MapUtils
import Verif.MapUtilsProps
import Verif.MeanFunctions
import Verif.MeanFunctionsProps
import Verif.Metrics
import Verif.MetricsProps
import Verif.MlCallback
import Verif.MlCallbackProps
import Verif.ModelEquality
import Verif.ModelEqualityProps
import Verif.ModelMetrics
import Verif.ModelMetricsProps
import Verif.NormalSpec
import Verif.NumberText
import Verif.NumberTextProps
import Verif.Objects
import Verif.ObjectsProps
import Verif.OptimalProps
import Verif.Parameters
import Verif.ParametersProps
import Verif.Prediction
import Verif.PredictionProps
import Verif.PrettyParams
import Verif.PrettyParamsProps
import Verif.PrimProps
import Verif.Printing
import Verif.PrintingProps
import Verif.PriorBoundsProps
import Verif.PriorsProps
import Verif.ProperScores
import Verif.ProperScoresProps
import Verif.ProvidedFunctions
import Verif.ProvidedFunctionsProps
import Verif.Psd
import Verif.QrSetup
import Verif.QrSetupProps
import Verif.QuadratureAccuracy
import Verif.QuadratureAccuracyProps
import Verif.QuadratureError
import Verif.QuadratureKernel
import Verif.QuadratureRangeProps
import Verif.QuadratureTable
import Verif.Radial
import Verif.RadialProps
import Verif.Random
import Verif.RandomLaw
import Verif.RandomLawProps
import Verif.RandomMatrix
import Verif.RandomMatrixProps
import Verif.RandomProps
import Verif.Ransac
import Verif.RansacGp
import Verif.RansacGpProps
import Verif.RansacLaw
import Verif.RansacLawProps
import Verif.RansacModel
import Verif.RansacModelProps
import Verif.RansacProps
import Verif.RemainingProps
import Verif.RmseTruth
import Verif.RmseTruthProps
import Verif.RoundedCode
import Verif.RoundedCodeProps
import Verif.RoundedErrors
import Verif.RoundedErrorsProps
import Verif.RoundedJoint
import Verif.RoundedJointProps
import Verif.RoundedLikelihood
import Verif.RoundedLikelihoodProps
import Verif.RoundedMean
import Verif.RoundedMeanProps
import Verif.RoundedSolve
import Verif.RoundedSolveProps
import Verif.RoundedStats
import Verif.RoundedStatsProps
import Verif.RoundedTrain
import Verif.RoundedTrainProps
import Verif.Rounding
import Verif.Sampler
import Verif.SamplerCsv
import Verif.SamplerCsvProps
import Verif.SamplerExample
import Verif.SamplerExampleProps
import Verif.SamplerProps
import Verif.ScoreProps
import Verif.Serialize
import Verif.SerializeProps
import Verif.SimpleModels
import Verif.SimpleModelsProps
import Verif.SincExample
import Verif.SincExampleProps
import Verif.SparseCloseProps
import Verif.SparseExample
import Verif.SparseExampleProps
import Verif.SparseGp
import Verif.SparseGpLemmas
import Verif.SparseGpProps
import Verif.SparseLikelihoodProps
import Verif.SparseWhole
import Verif.SparseWholeProps
import Verif.Stats
import Verif.StatsProps
import Verif.StretchLaw
import Verif.StretchWalkers
import Verif.StretchWalkersProps
import Verif.SuiteSparse
import Verif.SuiteSparseProps
import Verif.TemperatureExample
import Verif.TemperatureExampleProps
import Verif.TraceExample
import Verif.TraceExampleProps
import Verif.Traits
import Verif.TraitsProps
import Verif.TrueModel
import Verif.TrueModelProps
import Verif.Tune
import Verif.TuneProps
import Verif.TuneRun
import Verif.TuneRunProps
import Verif.Utils
import Verif.UtilsProps
import Verif.VariantSerialProps
import Verif.VariantUtils
import Verif.VariantUtilsProps
import Verif.WassersteinProps
import Verif.WholeModel
import Verif.WholeModelProps
import Verif.XmlFlatten
import Verif.XmlFlattenProps
