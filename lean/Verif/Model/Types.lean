import Verif.Model.Surface
import Verif.Model.ScalarField
import Verif.Model.Bins
import Verif.Model.ContinuousMap

/-!
# Data types

Objects that the code compares by address (surfaces, nuclides, perturbations) carry an
`id` standing for the address.  `std::map`s keyed by such pointers are lists in the order of
the addresses.
-/

namespace Minimc

/-- `Particle::Type` (Particle.hpp:30-33). -/
inductive ParticleType where
  | neutron
  | photon
deriving DecidableEq, Repr

/-- `Particle::Event` (Particle.hpp:35-43). -/
inductive Event where
  | birth
  | scatter
  | capture
  | fission
  | surfaceCross
  | leak
  | virtualCollision
deriving DecidableEq, Repr

/-- `Energy` (BasicTypes.hpp:24): `std::variant<ContinuousEnergy, Group>`. -/
inductive Energy where
  | continuous (e : ℝ)
  | group (g : ℕ)

namespace Energy

/-- `std::get<Group>` (e.g. Multigroup.cpp:46): throws `std::bad_variant_access` on the other
alternative. -/
def getGroup : Energy → Res ℕ
  | .group g => .ok g
  | .continuous _ => .error .badVariant

/-- `std::get<ContinuousEnergy>` (e.g. Continuous.cpp:31). -/
def getContinuous : Energy → Res ℝ
  | .continuous e => .ok e
  | .group _ => .error .badVariant

/-- `VisitEnergy` (Bins.hpp:146-149): the energy or the group number as a real number. -/
noncomputable def toReal : Energy → ℝ
  | .continuous e => e
  | .group g => g

end Energy

/-- `Reaction` (Reaction.hpp:9-13); the declaration order is the key order of
`Multigroup::ReactionsMap` (Multigroup.hpp:97). -/
inductive Reaction where
  | capture
  | scatter
  | fission
deriving DecidableEq, Repr

/-- `Multigroup` (Multigroup.hpp:21-129): `OneDimensional` is a list indexed by group minus
one, `TwoDimensional` a list of columns. -/
structure Multigroup where
  nubar : Option (List ℝ)
  chi : Option (List (List ℝ))
  scatterProbs : Option (List (List ℝ))
  reactions : List (Reaction × List ℝ)
  total : List ℝ
  maxGroup : ℕ

/-- `ContinuousEvaluation` (ContinuousEvaluation.hpp:10-24). -/
structure ContinuousEvaluation where
  xs : ContinuousMap
  temperature : ℝ

/-- `ThermalScattering::BetaPartition` and `AlphaPartition` (ThermalScattering.hpp:54-86);
`modes` is `E_T_modes` or `beta_T_modes`. -/
structure Partition where
  cdfModes : DataSet
  singularValues : DataSet
  modes : DataSet

/-- `ThermalScattering` (ThermalScattering.hpp:24-127). -/
structure ThermalScattering where
  majorant : ContinuousMap
  scatterXsT : DataSet
  scatterXsS : DataSet
  scatterXsE : DataSet
  betaPartitions : List Partition
  es : List ℝ
  betaEnds : List ℕ
  alphaPartitions : List Partition
  betas : List ℝ
  alphaEnds : List ℕ
  betaCutoff : ℝ
  alphaCutoff : ℝ
  awr : ℝ
  cutoffEnergy : ℝ

/-- The classes derived from `ContinuousReaction` (ContinuousReaction.hpp:18-127). -/
inductive ContinuousReaction where
  | capture (evaluation : ContinuousEvaluation)
  | scatter (evaluation : ContinuousEvaluation) (tsl : Option ThermalScattering) (awr : ℝ)
  | fission (evaluation : ContinuousEvaluation) (nubar : Option ContinuousMap)

/-- `Continuous` (Continuous.hpp:17-47). -/
structure Continuous where
  reactions : List ContinuousReaction
  total : ContinuousEvaluation

/-- The classes derived from `Interaction` (Interaction.hpp:16-38). -/
inductive Interaction where
  | multigroup (m : Multigroup)
  | continuous (c : Continuous)

/-- `Nuclide` (Nuclide.hpp:15-31).  `xs` is the `Interaction::Map`. -/
structure Nuclide where
  id : ℕ
  name : String
  xs : ParticleType → Option Interaction

/-- `Material` (Material.hpp:17-58); `afracs` in the order of the addresses of the
nuclides. -/
structure Material where
  name : String
  afracs : List (Nuclide × ℝ)
  numberDensity : ℝ

/-- `CSGSurface` objects (CSGSurface.hpp:15-59) with their name and identity. -/
structure SurfaceObj where
  id : ℕ
  name : String
  shape : Surface

/-- `Cell` (Cell.hpp:22-88); `surfaceSenses` in the order of the addresses of the surfaces. -/
structure Cell where
  name : String
  surfaceSenses : List (SurfaceObj × Bool)
  material : Option Material
  temperature : ScalarField

/-- `World` (World.hpp:27-84). -/
structure World where
  surfaces : List SurfaceObj
  nuclides : List Nuclide
  materials : List Material
  temperature : ScalarField
  cells : List Cell

/-- `TotalCrossSectionPerturbation` (Perturbation.hpp:55-78), the only class derived from
`Perturbation`; `nuclideId` is the address of the perturbed nuclide. -/
structure Perturbation where
  id : ℕ
  name : String
  nuclideId : ℕ

/-- The values passed to the `Particle` constructor (Particle.hpp:49-52).  Particles in a bank
are in this state until they are transported: no event but birth, no secondaries. -/
structure Born where
  position : Point
  direction : Direction
  energy : Energy
  type : ParticleType
  seed : ℕ
  cell : Option Cell

/-- `Particle` (Particle.hpp:26-132); `secondaries` are listed in the order in which they were
banked. -/
structure Particle where
  indirectEffects : List (Perturbation × ℝ)
  secondaries : List Born
  position : Point
  direction : Direction
  energy : Energy
  cell : Option Cell
  rng : ℕ
  type : ParticleType
  event : Event
  currentSurface : Option SurfaceObj

/-- The two transport methods (TransportMethod.hpp:52-72). -/
inductive Method where
  | surfaceTracking
  | cellDeltaTracking
deriving DecidableEq, Repr

end Minimc
