import Verif.Props.Polynomial
import Verif.Props.Trajectory
import Verif.Props.Magnitude
import Verif.Props.Vertex
import Verif.Props.Visualization
import Verif.Props.VisualizationMore
import Verif.Props.VisualizationShapes
import Verif.Props.Times
import Verif.Props.LinearOptimization
import Verif.Props.Io
import Verif.Props.Sampling
import Verif.Props.RosConversions
import Verif.Props.InputConstraints
import Verif.Props.HalfPlane
import Verif.Props.FeasibilityRecursive
import Verif.Props.FeasibilitySampling
import Verif.Props.FeasibilityAnalytic
import Verif.Props.Timing
import Verif.Props.TimerPeriods
import Verif.Props.TimingPrint
import Verif.Props.TimingText
import Verif.Props.DebugOutput
import Verif.Props.TestUtils
import Verif.Props.SamplerNode
import Verif.Props.Rpoly
import Verif.Props.RpolyOrigin
import Verif.Props.NonlinearOptimization
import Verif.Props.MellingerLimits
import Verif.Props.NonlinearCopies
import Verif.Props.NonlinearDetails
import Verif.Props.Equality
import Verif.Props.ExamplePlanner
import Verif.Props.LinearUnique
import Verif.Props.NonlinearLimits
import Verif.Props.VertexGenerators
import Verif.Props.MagnitudeFailure
import Verif.Props.MaximumSampling
import Verif.Props.SamplingOneDimension
import Verif.Props.LinearGetters
import Verif.Props.LinearAffine
import Verif.Props.LinearReverse
import Verif.Props.Rounded
import Verif.Props.AnalysesRoots
import Verif.Props.RoundedFeasibility
import Verif.Props.ApproxRoots
import Verif.Props.FeasibilityApprox
import Verif.Props.LinearCost
import Verif.Props.TimeEvaluation
import Verif.Props.ViolationScaling
import Verif.Props.Refusals
import Verif.Props.LinearMisuse
import Verif.Props.FeasibilityShort
import Verif.Props.ShortPolynomials
import Verif.Props.RoundedTimes
import Verif.Props.RoundedTiming
import Verif.Props.RoundedHalfPlane
import Verif.Props.RoundedExtrema
import Verif.Props.RoundedMagnitude
import Verif.Props.RoundedLimits
import Verif.Props.StoredDurations
import Verif.Props.RoundedMapping
import Verif.Props.RangeMemory
import Verif.Props.RoundedCost
import Verif.Props.MissingPositions
import Verif.Props.RoundedOptimizer
import Verif.Props.RpolyRounded
import Verif.Props.RpolyDeflation
import Verif.Props.RpolySteps
import Verif.Props.ExtremaRoots
import Verif.Props.FeasibilityDecides
import Verif.Props.RoundedSampling
import Verif.Props.RoundedAnalytic
import Verif.Props.Double
import Verif.Props.DoubleChecks
import Verif.Props.DoubleEqual
import Verif.Props.DoublePlanning
import Verif.Props.DoubleRange
import Verif.Props.NloptSettings
import Verif.Props.StreamText
import Verif.Props.RandomPath
import Verif.Props.DoublePolynomials
import Verif.Props.TestHelpers
