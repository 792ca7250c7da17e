import Verif.Model.Input

/-!
# The XML schema (test/minimc.xsd, test/minimc_basictypes.xsd)

What the validator (XMLDocument.cpp:74-86) checks.  Which schema is used is said by the document
itself; the one that comes with the program is assumed.
-/

namespace Minimc

namespace Schema

/-! ### Simple types -/

/-- `xs:double` (test/minimc_basictypes.xsd:7), finite values only. -/
def Double (env : Env) (s : String) : Prop := ∃ x, env.real s = some x

/-- `NonNegativeDouble` (test/minimc_basictypes.xsd:6-10). -/
def NonNegative (env : Env) (s : String) : Prop := ∃ x, env.real s = some x ∧ 0 ≤ x

/-- `StrictlyPositiveDouble` (test/minimc_basictypes.xsd:12-16). -/
def Positive (env : Env) (s : String) : Prop := ∃ x, env.real s = some x ∧ 0 < x

/-- `xs:positiveInteger` (test/minimc.xsd:13): digits, perhaps after a plus sign, perhaps between
white space, that are not all zero. -/
def PositiveInteger (s : String) : Prop :=
  ∃ before sign digits after, s.toList = before ++ sign ++ digits ++ after ∧
    (∀ c ∈ before, Text.isSpace c = true) ∧ (∀ c ∈ after, Text.isSpace c = true) ∧
    (sign = [] ∨ sign = ['+']) ∧ (∀ c ∈ digits, Text.isDigit c = true) ∧ ∃ c ∈ digits, c ≠ '0'

/-- `ParticleType` (test/minimc_basictypes.xsd:18-23). -/
def ParticleName (s : String) : Prop := s = "neutron" ∨ s = "photon"

/-- `ParticleTypeList` (test/minimc_basictypes.xsd:25-27). -/
def ParticleList (s : String) : Prop := ∀ w ∈ Text.words s, ParticleName w

/-- `GroupXS` (test/minimc_basictypes.xsd:29-31). -/
def GroupXS (env : Env) (s : String) : Prop := ∀ w ∈ Text.words s, NonNegative env w

/-- `TrackingType` (test/minimc_basictypes.xsd:33-38). -/
def Tracking (s : String) : Prop := s = "surface" ∨ s = "cell delta"

/-- `DoubleList` with at least one item (test/minimc_basictypes.xsd:40-42, 275-277). -/
def Doubles (env : Env) (s : String) : Prop :=
  Text.words s ≠ [] ∧ ∀ w ∈ Text.words s, Double env w

/-! ### Attributes and children -/

/-- The attributes are among the given ones, each at most once, and the required ones are there
(`use="required"`, e.g. test/minimc_basictypes.xsd:47). -/
def Attrs (n : Xml) (required optional : List String) : Prop :=
  (∀ a ∈ required, ∃ v, n.attr a = some v) ∧ (n.attrs.map Prod.fst).Nodup ∧
    ∀ a ∈ n.attrs.map Prod.fst, a ∈ required ∨ a ∈ optional

/-- The value of an attribute, if it is there, has the given type (e.g.
test/minimc_basictypes.xsd:47). -/
def Val (n : Xml) (a : String) (P : String → Prop) : Prop := ∀ v, n.attr a = some v → P v

/-- `xs:all` (e.g. test/minimc.xsd:8): every child at most once, in any order, and those without
`minOccurs="0"` once. -/
def AllOf (n : Xml) (required optional : List String) : Prop :=
  (∀ a ∈ required, ∃ c ∈ n.children, c.name = a) ∧ (n.children.map Xml.name).Nodup ∧
    ∀ c ∈ n.children, c.name ∈ required ∨ c.name ∈ optional

/-- `xs:choice` (e.g. test/minimc.xsd:23): exactly one child. -/
def OneOf (n : Xml) (names : List String) : Prop := ∃ c, n.children = [c] ∧ c.name ∈ names

/-- `xs:choice` with `maxOccurs="unbounded"` (e.g. test/minimc.xsd:35). -/
def SomeOf (n : Xml) (names : List String) : Prop :=
  n.children ≠ [] ∧ ∀ c ∈ n.children, c.name ∈ names

/-- `xs:unique` (e.g. test/minimc.xsd:56-59): no two nodes with the same name; nodes without a name
do not count. -/
def Unique (nodes : List Xml) : Prop := (nodes.filterMap (fun n => n.attr "name")).Nodup

/-! ### Complex types -/

/-- `PointType` (test/minimc_basictypes.xsd:46-50). -/
def IsPoint (env : Env) (n : Xml) : Prop :=
  Attrs n ["x", "y", "z"] [] ∧ n.children = [] ∧ ∀ a ∈ ["x", "y", "z"], Val n a (Double env)

/-- The `fission` element of `GroupXSReactions` (test/minimc_basictypes.xsd:56-64). -/
def GroupFission (env : Env) (n : Xml) : Prop :=
  AllOf n ["xs", "nubar", "chi"] [] ∧ ∀ c ∈ n.children, GroupXS env c.text

/-- `GroupXSReactions` (test/minimc_basictypes.xsd:52-66). -/
def GroupXSReactions (env : Env) (n : Xml) : Prop :=
  AllOf n [] ["capture", "scatter", "fission"] ∧
    ∀ c ∈ n.children, if c.name = "fission" then GroupFission env c else GroupXS env c.text

/-- `MultigroupNuclearData` (test/minimc_basictypes.xsd:68-81). -/
def MultigroupNuclearData (env : Env) (n : Xml) : Prop :=
  SomeOf n ["nuclide"] ∧ Attrs n ["groups"] [] ∧ Val n "groups" PositiveInteger ∧
    ∀ c ∈ n.children, Attrs c ["name"] [] ∧ AllOf c [] ["neutron", "photon"] ∧
      ∀ d ∈ c.children, GroupXSReactions env d

/-- `ContinuousEvaluation` (test/minimc_basictypes.xsd:83-86). -/
def Evaluation (env : Env) (n : Xml) : Prop :=
  Attrs n ["file", "temperature"] [] ∧ n.children = [] ∧ Val n "temperature" (Positive env)

/-- A list of partitions (test/minimc_basictypes.xsd:98-108, 111-121). -/
def Partitions (n : Xml) (rows : String) : Prop :=
  SomeOf n ["partition"] ∧ ∀ c ∈ n.children, Attrs c ["CDF", "S", rows] []

/-- The `tsl` element (test/minimc_basictypes.xsd:95-131). -/
def Tsl (env : Env) (n : Xml) : Prop :=
  AllOf n ["beta_partitions", "alpha_partitions"] [] ∧
  Attrs n ["majorant", "total_E", "total_T", "total_S", "beta_cutoff", "alpha_cutoff"] [] ∧
  Val n "beta_cutoff" (Positive env) ∧ Val n "alpha_cutoff" (Positive env) ∧
  Partitions (n.child "beta_partitions") "E_T" ∧ Partitions (n.child "alpha_partitions") "beta_T"

/-- The `scatter` element of `ContinuousXSReactions` (test/minimc_basictypes.xsd:92-134). -/
def ContinuousScatter (env : Env) (n : Xml) : Prop :=
  AllOf n ["xs"] ["tsl"] ∧ Evaluation env (n.child "xs") ∧
    ∀ c ∈ n.children, c.name = "tsl" → Tsl env c

/-- The `fission` element of `ContinuousXSReactions` (test/minimc_basictypes.xsd:136-143). -/
def ContinuousFission (env : Env) (n : Xml) : Prop :=
  AllOf n ["xs", "nubar"] [] ∧ ∀ c ∈ n.children, Evaluation env c

/-- `ContinuousXSReactions` (test/minimc_basictypes.xsd:88-146). -/
def ContinuousXSReactions (env : Env) (n : Xml) : Prop :=
  AllOf n [] ["total", "capture", "scatter", "fission"] ∧
    ∀ c ∈ n.children, if c.name = "fission" then ContinuousFission env c
      else if c.name = "scatter" then ContinuousScatter env c else Evaluation env c

/-- `ContinuousNuclearData` (test/minimc_basictypes.xsd:148-161). -/
def ContinuousNuclearData (env : Env) (n : Xml) : Prop :=
  SomeOf n ["nuclide"] ∧
    ∀ c ∈ n.children, Attrs c ["name", "awr"] [] ∧ Val c "awr" (Positive env) ∧
      AllOf c [] ["neutron", "photon"] ∧ ∀ d ∈ c.children, ContinuousXSReactions env d

/-- The `nuclides` element (test/minimc.xsd:21-32); the selector of its uniqueness constraint picks
the nodes `multigroup` and `continuous`, which have no name, so it constrains nothing. -/
def Nuclides (env : Env) (n : Xml) : Prop :=
  OneOf n ["multigroup", "continuous"] ∧
    ∀ c ∈ n.children, if c.name = "multigroup" then MultigroupNuclearData env c
      else ContinuousNuclearData env c

/-- The `general` element (test/minimc.xsd:9-20). -/
def General (n : Xml) : Prop :=
  AllOf n ["particles", "histories", "threads", "chunksize"] ["seed", "tracking"] ∧
    ∀ c ∈ n.children, if c.name = "particles" then ParticleList c.text
      else if c.name = "tracking" then Tracking c.text else PositiveInteger c.text

/-- The `materials` element (test/minimc.xsd:33-60). -/
def Materials (env : Env) (n : Xml) : Prop :=
  SomeOf n ["material"] ∧ Unique n.children ∧
    ∀ c ∈ n.children, Attrs c ["name", "aden"] [] ∧ Val c "aden" (Positive env) ∧
      SomeOf c ["nuclide"] ∧ Unique c.children ∧
      ∀ d ∈ c.children, Attrs d ["name", "afrac"] [] ∧ Val d "afrac" (Positive env)

/-- One of the surfaces (test/minimc.xsd:64-97, test/minimc_basictypes.xsd:163-165). -/
def SurfaceElement (env : Env) (n : Xml) : Prop :=
  if n.name = "sphere" then
    Attrs n ["name"] [] ∧ AllOf n ["center", "radius"] [] ∧ IsPoint env (n.child "center") ∧
      Attrs (n.child "radius") ["r"] [] ∧ Val (n.child "radius") "r" (Positive env)
  else if n.name = "planex" then Attrs n ["name", "x"] [] ∧ Val n "x" (Double env)
  else Attrs n ["name", "r"] [] ∧ Val n "r" (Double env)

/-- The `surfaces` element (test/minimc.xsd:61-104). -/
def Surfaces (env : Env) (n : Xml) : Prop :=
  SomeOf n ["sphere", "planex", "cylinderx"] ∧ Unique n.children ∧
    ∀ c ∈ n.children, SurfaceElement env c

/-- `CSGDefinition` (test/minimc_basictypes.xsd:167-183). -/
def CSGDefinition (n : Xml) : Prop :=
  SomeOf n ["surface"] ∧ ∀ c ∈ n.children, Attrs c ["name", "sense"] [] ∧
    Val c "sense" (fun s => s = "+1" ∨ s = "-1")

/-- The `cells` element (test/minimc.xsd:105-130). -/
def Cells (env : Env) (n : Xml) : Prop :=
  SomeOf n ["cell", "void"] ∧ Unique (n.children.filter (fun c => c.name == "cell")) ∧
    ∀ c ∈ n.children, CSGDefinition c ∧
      if c.name = "cell" then Attrs c ["name", "material"] ["temperature"] ∧
        Val c "temperature" (NonNegative env) ∧ Unique c.children
      else Attrs c [] []

/-- `ScalarField` (test/minimc_basictypes.xsd:185-211). -/
def IsScalarField (env : Env) (n : Xml) : Prop :=
  OneOf n ["constant", "linear"] ∧
    if n.firstChild.name = "constant" then
      Attrs n.firstChild ["c"] [] ∧ Val n.firstChild "c" (Double env)
    else AllOf n.firstChild ["bounds", "intercept", "gradient"] [] ∧
      Attrs (n.firstChild.child "bounds") ["lower", "upper"] [] ∧
      (∀ a ∈ ["lower", "upper"], Val (n.firstChild.child "bounds") a (Double env)) ∧
      Attrs (n.firstChild.child "intercept") ["b"] [] ∧
      Val (n.firstChild.child "intercept") "b" (Double env) ∧
      IsPoint env (n.firstChild.child "gradient")

/-- `DirectionDistribtionType` (test/minimc_basictypes.xsd:219-225). -/
def DirectionType (env : Env) (n : Xml) : Prop :=
  OneOf n ["constant", "isotropic", "isotropic-flux"] ∧
    (n.firstChild.name ≠ "isotropic" → IsPoint env n.firstChild)

/-- `SourceDistributionType` (test/minimc_basictypes.xsd:213-254). -/
def SourceType (env : Env) (n : Xml) : Prop :=
  AllOf n ["position", "direction", "energy", "particletype"] [] ∧
  OneOf (n.child "position") ["constant"] ∧ IsPoint env (n.child "position").firstChild ∧
  DirectionType env (n.child "direction") ∧
  OneOf (n.child "energy") ["constant"] ∧ Attrs (n.child "energy").firstChild ["energy"] [] ∧
  Val (n.child "energy").firstChild "energy" (Positive env) ∧
  OneOf (n.child "particletype") ["constant"] ∧
  Attrs (n.child "particletype").firstChild [] ["type"] ∧
  Val (n.child "particletype").firstChild "type" ParticleName

/-- The `problemtype` element (test/minimc.xsd:132-147). -/
def ProblemType (env : Env) (n : Xml) : Prop :=
  OneOf n ["fixedsource", "keigenvalue"] ∧
    if n.firstChild.name = "fixedsource" then SourceType env n.firstChild
    else AllOf n.firstChild ["initialsource"] [] ∧ SourceType env (n.firstChild.child "initialsource") ∧
      Attrs n.firstChild ["inactive", "active"] [] ∧
      ∀ a ∈ ["inactive", "active"], Val n.firstChild a PositiveInteger

/-- One choice of `BinType` (test/minimc_basictypes.xsd:256-282). -/
def BinElement (env : Env) (n : Xml) : Prop :=
  if n.name = "boundaries" then Doubles env n.text
  else Attrs n ["min", "max", "bins"] (if n.name = "logspace" then ["base"] else []) ∧
    (∀ a ∈ ["min", "max", "base"], Val n a (Double env)) ∧ Val n "bins" PositiveInteger

/-- `BinType` (test/minimc_basictypes.xsd:262-282). -/
def BinType (env : Env) (n : Xml) : Prop :=
  OneOf n ["linspace", "logspace", "boundaries"] ∧ BinElement env n.firstChild

/-- `ParticleBinType` (test/minimc_basictypes.xsd:284-299). -/
def ParticleBinType (env : Env) (n : Xml) : Prop :=
  AllOf n [] ["energy", "cosine"] ∧
    ∀ c ∈ n.children, BinType env c ∧ if c.name = "cosine" then Attrs c ["u", "v", "w"] [] ∧
      ∀ a ∈ ["u", "v", "w"], Val c a (Double env) else Attrs c [] []

/-- The `estimators` element (test/minimc.xsd:148-158, test/minimc_basictypes.xsd:301-329); the name
of a perturbation is not required. -/
def Estimators (env : Env) (n : Xml) : Prop :=
  SomeOf n ["current"] ∧ Unique n.children ∧
    ∀ c ∈ n.children, Attrs c ["name", "surface"] [] ∧ AllOf c [] ["bins", "sensitivities"] ∧
      (∀ d ∈ c.children, d.name = "bins" → ParticleBinType env d) ∧
      ∀ d ∈ c.children, d.name = "sensitivities" → SomeOf d ["perturbation"] ∧ Unique d.children ∧
        ∀ p ∈ d.children, Attrs p [] ["name"]

/-- The `perturbations` element (test/minimc.xsd:159-169, test/minimc_basictypes.xsd:331-340). -/
def Perturbations (n : Xml) : Prop :=
  SomeOf n ["total"] ∧ Unique n.children ∧ ∀ c ∈ n.children, Attrs c ["name", "nuclide"] []

/-- The schema (test/minimc.xsd:6-172) accepts the document with this root. -/
structure Valid (env : Env) (root : Xml) : Prop where
  elements : AllOf root ["general", "nuclides", "materials", "surfaces", "cells", "problemtype"]
    ["temperature", "estimators", "perturbations"]
  general : General (root.child "general")
  nuclides : Nuclides env (root.child "nuclides")
  materials : Materials env (root.child "materials")
  surfaces : Surfaces env (root.child "surfaces")
  cells : Cells env (root.child "cells")
  problemType : ProblemType env (root.child "problemtype")
  temperature : ∀ c ∈ root.children, c.name = "temperature" → IsScalarField env c
  estimators : ∀ c ∈ root.children, c.name = "estimators" → Estimators env c
  perturbations : ∀ c ∈ root.children, c.name = "perturbations" → Perturbations c

end Schema

open Classical in
/-- `Driver::Create` (Driver.cpp:18-35) with the validator (XMLDocument.cpp:74-90), which raises
`std::runtime_error` for a document that the schema does not accept. -/
noncomputable def Input.loadDriver (env : Env) (addr : Input.Addresses) (root : Xml) :
    Res Input.Created :=
  if Schema.Valid env root then Input.createDriver env addr root else .error .runtimeError

end Minimc
