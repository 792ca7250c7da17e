import Verif.Lemmas.Absorber
import Verif.Lemmas.Accuracy
import Verif.Lemmas.Adjustment
import Verif.Lemmas.Balance
import Verif.Lemmas.Bins
import Verif.Lemmas.Chain
import Verif.Lemmas.ChainFollows
import Verif.Lemmas.ChainLimit
import Verif.Lemmas.ChainMean
import Verif.Lemmas.ChainSquare
import Verif.Lemmas.ChainVariance
import Verif.Lemmas.CollisionLaw
import Verif.Lemmas.Continuous
import Verif.Lemmas.ContinuousSafe
import Verif.Lemmas.Crossings
import Verif.Lemmas.Double
import Verif.Lemmas.Driver
import Verif.Lemmas.Elastic
import Verif.Lemmas.Equilibrium
import Verif.Lemmas.Experiment
import Verif.Lemmas.FilePath
import Verif.Lemmas.FineGroups
import Verif.Lemmas.FineLaw
import Verif.Lemmas.Flight
import Verif.Lemmas.FlightsFollow
import Verif.Lemmas.FlightsMean
import Verif.Lemmas.FreeGasSafe
import Verif.Lemmas.Fuel
import Verif.Lemmas.GasAlike
import Verif.Lemmas.GasBins
import Verif.Lemmas.GasChain
import Verif.Lemmas.GasFlightsFollow
import Verif.Lemmas.GasFollows
import Verif.Lemmas.GasLaw
import Verif.Lemmas.GasLimit
import Verif.Lemmas.GasMean
import Verif.Lemmas.GasMixture
import Verif.Lemmas.GasRounds
import Verif.Lemmas.GasSquare
import Verif.Lemmas.GasSubcritical
import Verif.Lemmas.GasWalk
import Verif.Lemmas.Histogram
import Verif.Lemmas.HistoryBalance
import Verif.Lemmas.Input
import Verif.Lemmas.InputData
import Verif.Lemmas.InputDriver
import Verif.Lemmas.InputEigen
import Verif.Lemmas.InputExample
import Verif.Lemmas.InputExampleRun
import Verif.Lemmas.InputFail
import Verif.Lemmas.InputSource
import Verif.Lemmas.Isotropy
import Verif.Lemmas.Joint
import Verif.Lemmas.Keeps
import Verif.Lemmas.Law
import Verif.Lemmas.Leaving
import Verif.Lemmas.Likelihood
import Verif.Lemmas.Material
import Verif.Lemmas.Maxwell
import Verif.Lemmas.Merge
import Verif.Lemmas.MgInteract
import Verif.Lemmas.MgScatter
import Verif.Lemmas.Mixture
import Verif.Lemmas.MixtureLaw
import Verif.Lemmas.Multigroup
import Verif.Lemmas.Order
import Verif.Lemmas.OrderRun
import Verif.Lemmas.Output
import Verif.Lemmas.Placement
import Verif.Lemmas.Point
import Verif.Lemmas.Proportion
import Verif.Lemmas.PtrMap
import Verif.Lemmas.Rng
import Verif.Lemmas.Rotation
import Verif.Lemmas.RoundedCrossing
import Verif.Lemmas.RoundedCylinder
import Verif.Lemmas.RoundedDirection
import Verif.Lemmas.RoundedRng
import Verif.Lemmas.RoundedScore
import Verif.Lemmas.RoundedSelect
import Verif.Lemmas.RoundedSphere
import Verif.Lemmas.Score
import Verif.Lemmas.Search
import Verif.Lemmas.Select
import Verif.Lemmas.Sequence
import Verif.Lemmas.Shift
import Verif.Lemmas.ShiftRun
import Verif.Lemmas.Space
import Verif.Lemmas.Stationary
import Verif.Lemmas.Statistics
import Verif.Lemmas.Subcritical
import Verif.Lemmas.Surface
import Verif.Lemmas.Table
import Verif.Lemmas.Target
import Verif.Lemmas.TargetSpeed
import Verif.Lemmas.Text
import Verif.Lemmas.Thermal
import Verif.Lemmas.Transport
import Verif.Lemmas.Turn
import Verif.Lemmas.TurnLaw
import Verif.Lemmas.TurnSource
import Verif.Lemmas.Undefined
import Verif.Lemmas.Units
import Verif.Lemmas.VaryingFlight
import Verif.Lemmas.Walk
import Verif.Lemmas.WalkBins
import Verif.Lemmas.WalkBound
import Verif.Lemmas.WalkCollision
import Verif.Lemmas.WalkFollows
import Verif.Lemmas.WalkLimit
import Verif.Lemmas.WalkMean
import Verif.Lemmas.WalkRounds
import Verif.Lemmas.WorldBuild
import Verif.Lemmas.WorldParts
import Verif.Lemmas.Xml
import Verif.Model.Basic
import Verif.Model.Bins
import Verif.Model.Continuous
import Verif.Model.ContinuousMap
import Verif.Model.Double
import Verif.Model.Driver
import Verif.Model.Estimator
import Verif.Model.Geometry
import Verif.Model.Input
import Verif.Model.Material
import Verif.Model.Multigroup
import Verif.Model.Output
import Verif.Model.Particle
import Verif.Model.Point
import Verif.Model.Rng
import Verif.Model.Rounded
import Verif.Model.RoundedDirection
import Verif.Model.RoundedScore
import Verif.Model.RoundedTable
import Verif.Model.ScalarField
import Verif.Model.Schema
import Verif.Model.Search
import Verif.Model.Source
import Verif.Model.Surface
import Verif.Model.Thermal
import Verif.Model.Transport
import Verif.Model.Types
import Verif.Model.Underflow
import Verif.Model.WorldBuild
import Verif.Model.Xml
import Verif.Props.Absorber
import Verif.Props.AbsorberInput
import Verif.Props.Acceptance
import Verif.Props.Accepted
import Verif.Props.Accuracy
import Verif.Props.Attenuation
import Verif.Props.Azimuth
import Verif.Props.Bins
import Verif.Props.Chain
import Verif.Props.Coal
import Verif.Props.Continuous
import Verif.Props.ContinuousSafety
import Verif.Props.DeltaTracking
import Verif.Props.Driver
import Verif.Props.Drizzle
import Verif.Props.Equilibrium
import Verif.Props.Estimators
import Verif.Props.Experiment
import Verif.Props.FaceSource
import Verif.Props.FineGroups
import Verif.Props.FreeGas
import Verif.Props.FreeGasScatter
import Verif.Props.GasAlike
import Verif.Props.GasExperiment
import Verif.Props.GasMixture
import Verif.Props.GasSubcritical
import Verif.Props.GasTransport
import Verif.Props.Geometry
import Verif.Props.HistoryBalance
import Verif.Props.Input
import Verif.Props.InputNames
import Verif.Props.Isotropy
import Verif.Props.Joint
import Verif.Props.Material
import Verif.Props.Maxwell
import Verif.Props.Mixture
import Verif.Props.Multigroup
import Verif.Props.Order
import Verif.Props.Output
import Verif.Props.Placement
import Verif.Props.Plume
import Verif.Props.Point
import Verif.Props.Program
import Verif.Props.Proportion
import Verif.Props.Reactions
import Verif.Props.Refine
import Verif.Props.Regroup
import Verif.Props.RelatedRuns
import Verif.Props.Reliable
import Verif.Props.Rng
import Verif.Props.RoundedBetween
import Verif.Props.RoundedBins
import Verif.Props.RoundedCrossing
import Verif.Props.RoundedCylinder
import Verif.Props.RoundedDirection
import Verif.Props.RoundedExact
import Verif.Props.RoundedGrazing
import Verif.Props.RoundedRng
import Verif.Props.RoundedScore
import Verif.Props.RoundedSelect
import Verif.Props.RoundedSphere
import Verif.Props.RoundedTable
import Verif.Props.RunSafety
import Verif.Props.Runs
import Verif.Props.Safety
import Verif.Props.Score
import Verif.Props.Search
import Verif.Props.Secondaries
import Verif.Props.Seeds
import Verif.Props.Sensitivity
import Verif.Props.SensitivityDelta
import Verif.Props.SensitivityMean
import Verif.Props.Shift
import Verif.Props.Solve
import Verif.Props.Source
import Verif.Props.Stratified
import Verif.Props.Subcritical
import Verif.Props.Surface
import Verif.Props.Table
import Verif.Props.Target
import Verif.Props.Thermal
import Verif.Props.ThermalChoice
import Verif.Props.ThermalExact
import Verif.Props.ThermalGrid
import Verif.Props.ThermalLaw
import Verif.Props.ThermalSafety
import Verif.Props.ThermalSample
import Verif.Props.ThermalScatter
import Verif.Props.Transport
import Verif.Props.TransportEquation
import Verif.Props.Turn
import Verif.Props.Unbiased
import Verif.Props.Undefined
import Verif.Props.Underflow
import Verif.Props.Units
import Verif.Props.VaryingFlight
import Verif.Props.World
import Verif.Spec.Absorber
import Verif.Spec.Acceptance
import Verif.Spec.Attenuation
import Verif.Spec.Bins
import Verif.Spec.Chain
import Verif.Spec.Continuous
import Verif.Spec.ContinuousRun
import Verif.Spec.Driver
import Verif.Spec.Equilibrium
import Verif.Spec.Estimators
import Verif.Spec.Experiment
import Verif.Spec.FaceSource
import Verif.Spec.FineGroups
import Verif.Spec.Flight
import Verif.Spec.GasAlike
import Verif.Spec.GasMixture
import Verif.Spec.GasSubcritical
import Verif.Spec.GasWalk
import Verif.Spec.Geometry
import Verif.Spec.Histogram
import Verif.Spec.HistoryBalance
import Verif.Spec.Input
import Verif.Spec.Joint
import Verif.Spec.Likelihood
import Verif.Spec.Maxwell
import Verif.Spec.Mixture
import Verif.Spec.Multigroup
import Verif.Spec.Order
import Verif.Spec.Output
import Verif.Spec.Placement
import Verif.Spec.Proportion
import Verif.Spec.Refine
import Verif.Spec.Regroup
import Verif.Spec.Reliable
import Verif.Spec.Rotation
import Verif.Spec.RoundedCylinder
import Verif.Spec.RoundedDirection
import Verif.Spec.RoundedScore
import Verif.Spec.RoundedSphere
import Verif.Spec.RoundedTable
import Verif.Spec.Run
import Verif.Spec.Runs
import Verif.Spec.Score
import Verif.Spec.Select
import Verif.Spec.SensitivityWay
import Verif.Spec.Sequence
import Verif.Spec.Shift
import Verif.Spec.Streams
import Verif.Spec.Subcritical
import Verif.Spec.Surface
import Verif.Spec.Table
import Verif.Spec.Target
import Verif.Spec.Thermal
import Verif.Spec.ThermalLaw
import Verif.Spec.ThermalRun
import Verif.Spec.Transport
import Verif.Spec.Turn
import Verif.Spec.Undefined
import Verif.Spec.Units
import Verif.Spec.VaryingFlight
import Verif.Spec.Walk
import Verif.Spec.World
