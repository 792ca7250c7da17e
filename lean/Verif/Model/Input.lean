import Verif.Model.Xml
import Verif.Model.WorldBuild
import Verif.Model.Driver
import Verif.Model.Continuous

/-!
# Factories: from the document to a driver

The constructors and factory functions that read the document.  They produce the records that the
rest of the model works with (`Document`, `EstimatorNode`, ...), and finally a driver.

What is outside the program is collected in `Env`: which real number a decimal literal denotes, and
the contents of the data files.
-/

namespace Minimc

/-- What the program gets from outside: `real s` is the number denoted by the literal `s` if it is
one (`as_double`, `std::stod` and `operator>>`, e.g. Point.cpp:37, Source.cpp:70, Multigroup.cpp:86;
infinities and not-a-number are not modelled), and `files` is the content of a file written by
pandas (HDF5DataSet.hpp:84-130), absent when it does not exist or cannot be read. -/
structure Env where
  real : String → Option ℝ
  files : String → Option DataSet

namespace Input

/-- `attribute(name).as_double(default)` (e.g. Point.cpp:37, Bins.cpp:98). -/
noncomputable def attrReal (env : Env) (n : Xml) (a : String) (default : ℝ := 0) : ℝ :=
  match n.attr a with
  | some s => (env.real s).getD 0
  | none => default

/-- The loop `while (stream >> number)` (Multigroup.cpp:84-88, 129-132, Bins.cpp:141-151), which
ends at the first word that is not a number. -/
noncomputable def reals (env : Env) (s : String) : List ℝ :=
  (((Text.words s).map env.real).takeWhile Option.isSome).filterMap id

/-- `HDF5DataSet<D>(path)` (HDF5DataSet.hpp:41-44, 87-130): `std::runtime_error` for a missing file
or another number of levels.  No file has the empty path. -/
def openData (env : Env) (D : ℕ) (path : String) : Res DataSet :=
  match if path = "" then none else env.files path with
  | none => .error .runtimeError
  | some ds => if ds.axes.length = D then .ok ds else .error .runtimeError

/-- `Point(pointtype_node)` (Point.cpp:36-39). -/
noncomputable def point (env : Env) (n : Xml) : Point :=
  ⟨attrReal env n "x", attrReal env n "y", attrReal env n "z"⟩

/-- `Direction(pointtype_node)` (Point.cpp:80-83). -/
noncomputable def direction (env : Env) (n : Xml) : Res Direction := (point env n).normalize

/-- `Particle::ToType` (Particle.cpp:21-32). -/
def toType (name : String) : Res ParticleType :=
  if name = "neutron" then .ok .neutron
  else if name = "photon" then .ok .photon
  else .error .assertFail

/-- `ToReaction` (Reaction.cpp:6-19). -/
def toReaction (name : String) : Res Reaction :=
  if name = "capture" then .ok .capture
  else if name = "scatter" then .ok .scatter
  else if name = "fission" then .ok .fission
  else .error .runtimeError

/-! ### Cross sections -/

/-- `GroupStructureSize` (Multigroup.cpp:192-199). -/
def groupCount (root : Xml) : ℕ :=
  Text.asUnsigned 32 (((root.child "nuclides").child "multigroup").attrString "groups")

/-- The numbers below an optional child (Multigroup.cpp:24-31). -/
noncomputable def optionalReals (env : Env) (n : Xml) : Option (List ℝ) :=
  if n.isNull then none else some (reals env n.text)

/-- A child of a multigroup particle node (Multigroup.cpp:24-31, 214-227). -/
noncomputable def mgNode (env : Env) (n : Xml) : Res MgNode := do
  match ← toReaction n.name with
  | .capture => .ok (.capture (reals env n.text))
  | .scatter => .ok (.scatter (reals env n.text))
  | .fission => .ok (.fission (optionalReals env (n.child "nubar")) (optionalReals env (n.child "chi"))
      (reals env (n.child "xs").text))

/-- `Multigroup(particle_node)` (Multigroup.cpp:23-38).  A child with another name is reported
before anything else; the exception is the same. -/
noncomputable def multigroup (env : Env) (root particleNode : Xml) : Res Multigroup := do
  let nodes ← particleNode.children.mapM (mgNode env)
  Multigroup.create (groupCount root) nodes

/-- `ContinuousEvaluation(evaluation_node)` (ContinuousEvaluation.cpp:11-15). -/
noncomputable def evaluation (env : Env) (n : Xml) : Res ContinuousEvaluation := do
  let ds ← openData env 1 (n.attrString "file")
  let xs ← ds.toContinuousMap
  .ok ⟨xs, attrReal env n "temperature"⟩

/-- `BetaPartition` and `AlphaPartition` constructors (ThermalScattering.cpp:177-181, 219-223,
ThermalScattering.hpp:63-67, 81-85); `rows` is the name of the attribute with the modes. -/
def partition (env : Env) (rows : String) (n : Xml) : Res Partition := do
  let cdf ← openData env 2 (n.attrString "CDF")
  let s ← openData env 1 (n.attrString "S")
  let modes ← openData env 3 (n.attrString rows)
  .ok ⟨cdf, s, modes⟩

/-- `ThermalScattering(tsl_node)` (ThermalScattering.cpp:25-99), which is `noexcept`: opening a file
that cannot be read terminates the program. -/
noncomputable def thermalScattering (env : Env) (awr : ℝ) (n : Xml) : Res ThermalScattering :=
  noexcept do
  let majorant ← openData env 1 (n.attrString "majorant")
  let xsT ← openData env 2 (n.attrString "total_T")
  let xsS ← openData env 1 (n.attrString "total_S")
  let xsE ← openData env 2 (n.attrString "total_E")
  let betas ← (n.child "beta_partitions").children.mapM (partition env "E_T")
  let alphas ← (n.child "alpha_partitions").children.mapM (partition env "beta_T")
  ThermalScattering.create majorant xsT xsS xsE betas alphas (attrReal env n "beta_cutoff")
    (attrReal env n "alpha_cutoff") awr

/-- `ReadPandasSAB` (ContinuousReaction.cpp:193-205); `particle` is the name of the node two levels
up. -/
noncomputable def readPandasSAB (env : Env) (awr : ℝ) (particle : String) (n : Xml) :
    Res (Option ThermalScattering) :=
  if n.isNull then .ok none
  else do
    if (← toType particle) ≠ .neutron then .error .runtimeError
    else do
      let s ← thermalScattering env awr n
      .ok (some s)

/-- The `nubar` member of a `ContinuousFission` (ContinuousReaction.cpp:245-250). -/
noncomputable def nubarTable (env : Env) (n : Xml) : Res (Option ContinuousMap) :=
  if n.isNull then .ok none
  else do
    let ds ← openData env 1 (n.attrString "file")
    let xs ← ds.toContinuousMap
    .ok (some xs)

/-- `ContinuousReaction::Create` (ContinuousReaction.cpp:24-34) and the constructors
(ContinuousReaction.cpp:36-37, 57-58, 68-71, 243-250). -/
noncomputable def continuousReaction (env : Env) (awr : ℝ) (particle : String) (n : Xml) :
    Res ContinuousReaction := do
  match ← toReaction n.name with
  | .capture => do .ok (.capture (← evaluation env n))
  | .scatter => do
    let ev ← evaluation env (n.child "xs")
    let tsl ← readPandasSAB env awr particle (n.child "tsl")
    .ok (.scatter ev tsl awr)
  | .fission => do
    let ev ← evaluation env (n.child "xs")
    let nubar ← nubarTable env (n.child "nubar")
    .ok (.fission ev nubar)

/-- `Continuous(particle_node)` (Continuous.cpp:22-24, 74-85). -/
noncomputable def continuous (env : Env) (awr : ℝ) (particleNode : Xml) : Res Continuous := do
  let reactions ← (particleNode.children.filter (fun n => n.name != "total")).mapM
    (continuousReaction env awr particleNode.name)
  let total ← evaluation env (particleNode.child "total")
  .ok ⟨reactions, total⟩

/-- One cross section object (Interaction.cpp:32-45) for the node of a particle. -/
noncomputable def interaction (env : Env) (root nuclideNode particleNode : Xml) :
    Res Interaction := do
  let energyType := (root.child "nuclides").firstChild.name
  if energyType = "multigroup" then .ok (.multigroup (← multigroup env root particleNode))
  else if energyType = "continuous" then
    .ok (.continuous (← continuous env (attrReal env nuclideNode "awr") particleNode))
  else .error .assertFail

/-- The loop of `Interaction::Create` (Interaction.cpp:25-46) over the remaining particle names;
`emplace` keeps an entry that is already there. -/
noncomputable def interactionsFrom (env : Env) (root nuclideNode : Xml) :
    (ParticleType → Option Interaction) → List String → Res (ParticleType → Option Interaction)
  | xs, [] => .ok xs
  | xs, name :: names =>
    let particleNode := nuclideNode.child name
    if particleNode.isNull then .error .runtimeError
    else do
      let t ← toType name
      let i ← interaction env root nuclideNode particleNode
      interactionsFrom env root nuclideNode
        (fun t' => if t' = t then some ((xs t).getD i) else xs t') names

/-- `Interaction::Create` (Interaction.cpp:16-48). -/
noncomputable def interactions (env : Env) (root nuclideNode : Xml) :
    Res (ParticleType → Option Interaction) :=
  interactionsFrom env root nuclideNode (fun _ => none)
    (Text.words ((root.child "general").child "particles").text)

/-! ### Geometry -/

/-- `CSGSurface::ToSurfaceType` and the constructors (CSGSurface.cpp:31-43, 56-69, 103-105,
122-123, 144-146). -/
noncomputable def surface (env : Env) (n : Xml) : Res SurfaceNode := do
  let name := n.attrString "name"
  if n.name = "sphere" then
    .ok ⟨name, .sphere (point env (n.child "center")) (attrReal env (n.child "radius") "r")⟩
  else if n.name = "planex" then .ok ⟨name, .planeX (attrReal env n "x")⟩
  else if n.name = "cylinderx" then .ok ⟨name, .cylinderX (attrReal env n "r")⟩
  else .error .assertFail

/-- What is read of a `material` node (Material.cpp:19-20, 39, 71-80). -/
noncomputable def material (env : Env) (n : Xml) : MaterialNode :=
  ⟨n.attrString "name", attrReal env n "aden",
    n.children.map (fun x => (x.attrString "name", attrReal env x "afrac"))⟩

/-- What is read of a `nuclide` node (World.cpp:124-125, Nuclide.cpp:12-14). -/
noncomputable def nuclide (env : Env) (root n : Xml) : NuclideNode :=
  ⟨n.attrString "name", interactions env root n⟩

/-- The `sense` of a surface (Cell.cpp:72-82). -/
def sense (s : String) : Sense :=
  if s = "-1" then .minus else if s = "+1" then .plus else .other

/-- What is read of a child of the `cells` node (World.cpp:89-90, 108, 112; Cell.cpp:22, 61-72,
92-95, 109-111). -/
noncomputable def cell (env : Env) (n : Xml) : CellNode :=
  ⟨n.name == "void", n.attr "name", n.attrString "material",
    (n.attr "temperature").map (fun s => (env.real s).getD 0),
    n.children.map (fun s => (s.attrString "name", sense (s.attrString "sense")))⟩

/-- `ScalarField::Create` (ScalarField.cpp:12-26, 35-39, 49-54). -/
noncomputable def scalarField (env : Env) (n : Xml) : Res ScalarField :=
  if n.name = "constant" then .ok (.constant (attrReal env n "c"))
  else if n.name = "linear" then
    .ok (.linear (attrReal env (n.child "bounds") "upper") (attrReal env (n.child "bounds") "lower")
      (point env (n.child "gradient")) (attrReal env (n.child "intercept") "b"))
  else .error .assertFail

/-- The temperature field, if there is one (World.cpp:170-177). -/
noncomputable def temperature (env : Env) (n : Xml) : Res (Option ScalarField) :=
  if n.isNull then .ok none else do .ok (some (← scalarField env n.firstChild))

/-- What `World::World` reads (World.cpp:20-24, 85-189).  Simplification: every child of `surfaces`
is looked at, while the code only looks at those that are used; a surface with an unknown name
does not pass the validator. -/
noncomputable def document (env : Env) (root : Xml) : Res Document := do
  let surfaces ← (root.child "surfaces").children.mapM (surface env)
  let t ← temperature env (root.child "temperature")
  .ok ⟨surfaces, (root.child "materials").children.map (material env),
    (root.child "nuclides").firstChild.children.map (nuclide env root), t,
    (root.child "cells").children.map (cell env)⟩

/-! ### Estimators and perturbations -/

/-- `Bins::Create` (Bins.cpp:20-38). -/
noncomputable def bins (env : Env) (n : Xml) : Res Bins :=
  if n.name = "" then .ok .none
  else if n.name = "linspace" then
    Bins.createLinspace (Text.asUnsigned 64 (n.attrString "bins")) (attrReal env n "min")
      (attrReal env n "max")
  else if n.name = "logspace" then
    Bins.createLogspace (Text.asUnsigned 64 (n.attrString "bins")) (attrReal env n "base" 10)
      (attrReal env n "min") (attrReal env n "max")
  else if n.name = "boundaries" then Bins.createBoundaries (reals env n.text)
  else .error .assertFail

/-- The reference direction of a `cosine` node (Bins.cpp:178-187, Point.cpp:85-88). -/
noncomputable def cosineDirection (env : Env) (n : Xml) : Res (Option Direction) :=
  if n.isNull then .ok none
  else do
    let d ← Direction.ofXYZ (attrReal env n "u") (attrReal env n "v") (attrReal env n "w")
    .ok (some d)

/-- `ParticleBins(bins_node)` (Bins.cpp:176-190). -/
noncomputable def particleBins (env : Env) (n : Xml) : Res ParticleBins := do
  let d ← cosineDirection env (n.child "cosine")
  ParticleBins.create d (bins env (n.child "cosine").firstChild)
    (bins env (n.child "energy").firstChild)

/-- What is read of a child of the `estimators` node (Estimator.cpp:21-33, 76-91, 128-133;
Sensitivity.cpp:13-21). -/
noncomputable def estimator (env : Env) (n : Xml) : EstimatorNode :=
  ⟨n.name == "current", n.attrString "name", n.attrString "surface",
    particleBins env (n.child "bins"),
    (n.child "sensitivities").children.map (fun s => s.attrString "name")⟩

/-- What is read of a child of the `perturbations` node (Perturbation.cpp:22-33, 39-50). -/
def perturbation (n : Xml) : Res PerturbationNode :=
  if n.name = "total" then .ok ⟨n.attrString "name", n.attrString "nuclide"⟩
  else .error .assertFail

/-! ### Source -/

/-- `Distribution<Point>::Create` (Source.cpp:26-40). -/
noncomputable def positionDist (env : Env) (n : Xml) : Res Point :=
  if n.firstChild.name = "constant" then .ok (point env n.firstChild) else .error .assertFail

/-- `Distribution<Direction>::Create` (Source.cpp:41-54, 121-122). -/
noncomputable def directionDist (env : Env) (n : Xml) : Res DirectionDist := do
  if n.firstChild.name = "constant" then .ok (.constant (← direction env n.firstChild))
  else if n.firstChild.name = "isotropic" then .ok .isotropic
  else if n.firstChild.name = "isotropic-flux" then
    .ok (.isotropicFlux (← direction env n.firstChild))
  else .error .assertFail

/-- `std::stod` (Source.cpp:70), which raises for text that is not a number. -/
noncomputable def stod (env : Env) (s : String) : Res ℝ :=
  match env.real s with
  | some x => .ok x
  | none => .error .runtimeError

/-- `Distribution<Energy>::Create` (Source.cpp:55-76). -/
noncomputable def energyDist (env : Env) (root n : Xml) : Res Energy :=
  if n.firstChild.name = "constant" then
    if (root.child "nuclides").firstChild.name = "multigroup" then do
      .ok (.group (← Text.stoull (n.firstChild.attrString "energy")))
    else if (root.child "nuclides").firstChild.name = "continuous" then do
      .ok (.continuous (← stod env (n.firstChild.attrString "energy")))
    else .error .assertFail
  else .error .assertFail

/-- `Distribution<Particle::Type>::Create` (Source.cpp:77-83, 90). -/
def typeDist (n : Xml) : Res ParticleType :=
  if n.firstChild.name = "constant" then toType (n.firstChild.attrString "type")
  else .error .assertFail

/-- `Source(source_node)` (Source.cpp:135-141). -/
noncomputable def source (env : Env) (root n : Xml) : Res Source := do
  let position ← positionDist env (n.child "position")
  let direction ← directionDist env (n.child "direction")
  let energy ← energyDist env root (n.child "energy")
  let type ← typeDist (n.child "particletype")
  .ok ⟨position, direction, energy, type⟩

/-! ### Drivers -/

/-- The addresses given to the objects of the world and to the perturbations (World.cpp:97, 138,
Perturbation.cpp:94), about which nothing is assumed here. -/
structure Addresses where
  surface : ℕ → ℕ
  nuclide : ℕ → ℕ
  perturbation : ℕ → ℕ

/-- The content of the `tracking` element (TransportMethod.cpp:27-44). -/
def tracking (s : String) : TrackingType :=
  if s = "" then .absent else if s = "surface" then .surface
  else if s = "cell delta" then .cellDelta else .other

/-- The seed (Driver.cpp:41-44). -/
def seed (general : Xml) : Res ℕ :=
  Text.stoi (if (general.child "seed").isNull then "1" else (general.child "seed").text)

/-- `Driver(root)` (Driver.cpp:37-52), the members in the order of their declaration
(Driver.hpp:32-50).  The source belongs to the derived class and is filled in by it. -/
noncomputable def driver (env : Env) (addr : Addresses) (root : Xml) (src : Res Source) :
    Res Problem := do
  let general := root.child "general"
  let doc ← document env root
  let world ← WorldBuild.create doc addr.surface addr.nuclide
  let nodes ← (root.child "perturbations").children.mapM perturbation
  let perturbations ← createPerturbations world ((List.range nodes.length).map addr.perturbation)
    nodes
  let batchsize ← Text.stoi (general.child "histories").text
  let seed ← seed general
  let init ← createEstimatorSet world perturbations
    ((root.child "estimators").children.map (estimator env)) batchsize
  let threads ← Text.stoull (general.child "threads").text
  let method ← createMethod (tracking (general.child "tracking").text) world
  let source ← src
  .ok ⟨world, perturbations, batchsize, seed, init, threads, method, source⟩

/-- The two kinds of drivers (FixedSource.cpp:19-20, KEigenvalue.cpp:19-34). -/
inductive Created where
  | fixedSource (P : Problem)
  | keigenvalue (P : Problem) (lastInactive lastActive : ℕ) (bank : Bank)

/-- `FixedSource(root)` (FixedSource.cpp:19-20). -/
noncomputable def fixedSource (env : Env) (addr : Addresses) (root : Xml) : Res Created := do
  let P ← driver env addr root
    (source env root ((root.child "problemtype").child "fixedsource"))
  .ok (.fixedSource P)

/-- `KEigenvalue(root)` (KEigenvalue.cpp:19-34). -/
noncomputable def keigenvalue (env : Env) (addr : Addresses) (root : Xml) : Res Created := do
  let n := (root.child "problemtype").child "keigenvalue"
  let P ← driver env addr root (source env root (n.child "initialsource"))
  let inactive := Text.asUnsigned 32 (n.attrString "inactive")
  let bank ← keigenSourceBank P.source P.batchsize
  .ok (.keigenvalue P inactive (inactive + Text.asUnsigned 32 (n.attrString "active")) bank)

/-- `Driver::Create` (Driver.cpp:18-35) on a document that passed the validator. -/
noncomputable def createDriver (env : Env) (addr : Addresses) (root : Xml) : Res Created :=
  let problemType := (root.child "problemtype").firstChild.name
  if problemType = "fixedsource" then fixedSource env addr root
  else if problemType = "keigenvalue" then keigenvalue env addr root
  else .error .assertFail

end Input
end Minimc
