import Verif.Model.Input
import Verif.Spec.Estimators

/-!
# Specification of the input: what a document says

Relations between parts of a document and the objects they describe.  They do not use the functions
that look up nodes and attributes or split and convert text.
-/

namespace Minimc.Spec

/-! ### Reading a document -/

/-- `c` is a child of `n` called `s`. -/
def Child (n : Xml) (s : String) (c : Xml) : Prop := c ∈ n.children ∧ c.name = s

/-- `m` is reached from `n` through children of the given names. -/
def Reaches : Xml → List String → Xml → Prop
  | n, [], m => m = n
  | n, s :: ss, m => ∃ c, Child n s c ∧ Reaches c ss m

/-- `cs` are the children of the child of `n` called `s`, none if there is no such child. -/
def Grandchildren (n : Xml) (s : String) (cs : List Xml) : Prop :=
  (∃ c, Child n s c ∧ cs = c.children) ∨ ((¬ ∃ c, Child n s c) ∧ cs = [])

/-- Attribute `a` of `n` has the value `v`. -/
def HasAttr (n : Xml) (a v : String) : Prop := (a, v) ∈ n.attrs

/-- Attribute `a` of `n` has the value `v`, or it is absent and `v` is empty. -/
def HasAttrOrEmpty (n : Xml) (a v : String) : Prop :=
  HasAttr n a v ∨ (¬ ∃ u, HasAttr n a u) ∧ v = ""

/-- Attribute `a` of `n` is the number `x`. -/
def Number (env : Env) (n : Xml) (a : String) (x : ℝ) : Prop :=
  ∃ v, HasAttr n a v ∧ env.real v = some x

/-- The characters that separate words. -/
def Space (c : Char) : Prop := c ∈ [' ', '\t', '\n', '\r', '\x0b', '\x0c']

/-- The text consists of the given words between white space. -/
inductive Words : List Char → List String → Prop where
  | nil {sp : List Char} : (∀ c ∈ sp, Space c) → Words sp []
  | cons {sp w rest : List Char} {ws : List String} : (∀ c ∈ sp, Space c) → w ≠ [] →
      (∀ c ∈ w, ¬ Space c) → (∀ c, rest.head? = some c → Space c) → Words rest ws →
      Words (sp ++ w ++ rest) (String.ofList w :: ws)

/-- The text is a list of the given numbers. -/
def Numbers (env : Env) (s : String) (xs : List ℝ) : Prop :=
  ∃ ws, Words s.toList ws ∧ List.Forall₂ (fun w x => env.real w = some x) ws xs

/-- The value of a digit. -/
def digit (c : Char) : ℕ := c.toNat - 48

/-- The text is the natural number `v` in decimal notation. -/
def Denotes (s : String) (v : ℕ) : Prop :=
  ∃ before sign digits after, s.toList = before ++ sign ++ digits ++ after ∧
    (∀ c ∈ before, Space c) ∧ (∀ c ∈ after, Space c) ∧ (sign = [] ∨ sign = ['+']) ∧ digits ≠ [] ∧
    (∀ c ∈ digits, 48 ≤ c.toNat ∧ c.toNat ≤ 57) ∧ v = Nat.ofDigits 10 (digits.reverse.map digit)

/-- Attribute `a` of `n` is the natural number `v`. -/
def Count (n : Xml) (a : String) (v : ℕ) : Prop := ∃ s, HasAttr n a s ∧ Denotes s v

/-! ### The world -/

/-- The coordinates of the element. -/
structure PointOf (env : Env) (n : Xml) (p : Point) : Prop where
  x : Number env n "x" p.x
  y : Number env n "y" p.y
  z : Number env n "z" p.z

/-- The surface that an element describes. -/
inductive SurfaceOf (env : Env) (n : Xml) : SurfaceNode → Prop where
  | sphere {name : String} {c r : Xml} {p : Point} {x : ℝ} : n.name = "sphere" →
      HasAttr n "name" name → Child n "center" c → PointOf env c p → Child n "radius" r →
      Number env r "r" x → SurfaceOf env n ⟨name, .sphere p x⟩
  | planeX {name : String} {x : ℝ} : n.name = "planex" → HasAttr n "name" name →
      Number env n "x" x → SurfaceOf env n ⟨name, .planeX x⟩
  | cylinderX {name : String} {x : ℝ} : n.name = "cylinderx" → HasAttr n "name" name →
      Number env n "r" x → SurfaceOf env n ⟨name, .cylinderX x⟩

/-- The material that an element describes. -/
structure MaterialOf (env : Env) (n : Xml) (m : MaterialNode) : Prop where
  name : HasAttr n "name" m.name
  aden : Number env n "aden" m.aden
  nuclides : List.Forall₂ (fun c x => HasAttr c "name" x.1 ∧ Number env c "afrac" x.2)
    n.children m.nuclides

/-- The cell that an element describes. -/
structure CellNodeOf (env : Env) (n : Xml) (c : CellNode) : Prop where
  void : c.isVoid = true ↔ n.name = "void"
  name : ∀ v, c.name = some v ↔ HasAttr n "name" v
  material : c.isVoid = false → HasAttr n "material" c.material
  temperature : ∀ x, c.temperature = some x ↔ Number env n "temperature" x
  surfaces : List.Forall₂ (fun d s => HasAttr d "name" s.1 ∧
    ((HasAttr d "sense" "-1" ∧ s.2 = .minus) ∨ (HasAttr d "sense" "+1" ∧ s.2 = .plus)))
    n.children c.surfaces

/-- The scalar field that an element describes. -/
inductive FieldOf (env : Env) (n : Xml) : ScalarField → Prop where
  | constant {k : Xml} {c : ℝ} : Child n "constant" k → Number env k "c" c →
      FieldOf env n (.constant c)
  | linear {k bounds gradient intercept : Xml} {u l b : ℝ} {g : Point} : Child n "linear" k →
      Child k "bounds" bounds → Number env bounds "upper" u → Number env bounds "lower" l →
      Child k "gradient" gradient → PointOf env gradient g →
      Child k "intercept" intercept → Number env intercept "b" b →
      FieldOf env n (.linear u l g b)

/-- The reaction of a multigroup nuclide that an element describes. -/
inductive MgNodeOf (env : Env) (n : Xml) : MgNode → Prop where
  | capture {xs : List ℝ} : n.name = "capture" → Numbers env n.text xs →
      MgNodeOf env n (.capture xs)
  | scatter {xs : List ℝ} : n.name = "scatter" → Numbers env n.text xs →
      MgNodeOf env n (.scatter xs)
  | fission {a b c : Xml} {nubar chi xs : List ℝ} : n.name = "fission" →
      Child n "nubar" a → Numbers env a.text nubar → Child n "chi" b → Numbers env b.text chi →
      Child n "xs" c → Numbers env c.text xs → MgNodeOf env n (.fission (some nubar) (some chi) xs)

/-- The file named by attribute `a` of `n` holds the table `ds` with `D` axes. -/
def FileOf (env : Env) (D : ℕ) (n : Xml) (a : String) (ds : DataSet) : Prop :=
  ∃ v, HasAttr n a v ∧ v ≠ "" ∧ env.files v = some ds ∧ ds.axes.length = D

/-- The cross section that an element describes. -/
structure EvaluationOf (env : Env) (n : Xml) (ev : ContinuousEvaluation) : Prop where
  xs : ∃ ds, FileOf env 1 n "file" ds ∧ ds.toContinuousMap = .ok ev.xs
  temperature : Number env n "temperature" ev.temperature

/-- The partition that an element describes. -/
structure PartitionOf (env : Env) (rows : String) (n : Xml) (p : Partition) : Prop where
  cdf : FileOf env 2 n "CDF" p.cdfModes
  s : FileOf env 1 n "S" p.singularValues
  modes : FileOf env 3 n rows p.modes

/-- The thermal scattering data that an element describes. -/
def TslOf (env : Env) (awr : ℝ) (n : Xml) (t : ThermalScattering) : Prop :=
  ∃ majorant xsT xsS xsE b betas a alphas betaCutoff alphaCutoff,
    FileOf env 1 n "majorant" majorant ∧ FileOf env 2 n "total_T" xsT ∧
    FileOf env 1 n "total_S" xsS ∧ FileOf env 2 n "total_E" xsE ∧
    Child n "beta_partitions" b ∧ List.Forall₂ (PartitionOf env "E_T") b.children betas ∧
    Child n "alpha_partitions" a ∧ List.Forall₂ (PartitionOf env "beta_T") a.children alphas ∧
    Number env n "beta_cutoff" betaCutoff ∧ Number env n "alpha_cutoff" alphaCutoff ∧
    ThermalScattering.create majorant xsT xsS xsE betas alphas betaCutoff alphaCutoff awr = .ok t

/-- The reaction of a continuous-energy nuclide that an element describes. -/
inductive ReactionOf (env : Env) (awr : ℝ) (particle : String) (n : Xml) :
    ContinuousReaction → Prop where
  | capture {ev : ContinuousEvaluation} : n.name = "capture" → EvaluationOf env n ev →
      ReactionOf env awr particle n (.capture ev)
  | scatter {c : Xml} {ev : ContinuousEvaluation} : n.name = "scatter" → Child n "xs" c →
      EvaluationOf env c ev → (¬ ∃ d, Child n "tsl" d) →
      ReactionOf env awr particle n (.scatter ev none awr)
  | thermal {c d : Xml} {ev : ContinuousEvaluation} {t : ThermalScattering} : n.name = "scatter" →
      Child n "xs" c → EvaluationOf env c ev → Child n "tsl" d → particle = "neutron" →
      TslOf env awr d t → ReactionOf env awr particle n (.scatter ev (some t) awr)
  | fission {c d : Xml} {ev : ContinuousEvaluation} {ds : DataSet} {nubar : ContinuousMap} :
      n.name = "fission" → Child n "xs" c → EvaluationOf env c ev → Child n "nubar" d →
      FileOf env 1 d "file" ds → ds.toContinuousMap = .ok nubar →
      ReactionOf env awr particle n (.fission ev (some nubar))

/-- The cross sections that the element `d` of the nuclide `n` describes. -/
inductive InteractionOf (env : Env) (root n d : Xml) : Interaction → Prop where
  | multigroup {k : Xml} {G : ℕ} {nodes : List MgNode} {m : Multigroup} :
      Reaches root ["nuclides", "multigroup"] k → Count k "groups" G →
      List.Forall₂ (MgNodeOf env) d.children nodes →
      Multigroup.create (min G (2 ^ 32 - 1)) nodes = .ok m →
      InteractionOf env root n d (.multigroup m)
  | continuous {k t : Xml} {awr : ℝ} {rs : List ContinuousReaction} {total : ContinuousEvaluation} :
      Reaches root ["nuclides", "continuous"] k → Number env n "awr" awr →
      List.Forall₂ (ReactionOf env awr d.name) (d.children.filter (fun c => c.name ≠ "total")) rs →
      Child d "total" t → EvaluationOf env t total →
      InteractionOf env root n d (.continuous ⟨rs, total⟩)

/-- The reactions of the nuclide with neutrons as an element among the children of `k` that bears its
name describes them. -/
def NeutronNodes (env : Env) (k : Xml) (n : Nuclide) (nodes : List MgNode) : Prop :=
  ∃ el ∈ k.children, HasAttr el "name" n.name ∧ ∃ d, Child el "neutron" d ∧
    List.Forall₂ (MgNodeOf env) d.children nodes

/-- How the input names a type of particles. -/
def typeName : ParticleType → String
  | .neutron => "neutron"
  | .photon => "photon"

/-- The type is in the list of particles of the problem. -/
def Listed (root : Xml) (t : ParticleType) : Prop :=
  ∃ n ws, Reaches root ["general", "particles"] n ∧ Words n.text.toList ws ∧ typeName t ∈ ws

/-- The cross sections that the nuclide `n` has: those of the listed particles, for each of which it
must have an element. -/
def DataOf (env : Env) (root n : Xml) (xs : ParticleType → Option Interaction) : Prop :=
  ∀ t, (Listed root t → ∃ d i, Child n (typeName t) d ∧ InteractionOf env root n d i ∧
    xs t = some i) ∧ (¬ Listed root t → xs t = none)

/-- The nuclide that an element describes. -/
structure NuclideOf (env : Env) (root n : Xml) (x : NuclideNode) : Prop where
  name : HasAttr n "name" x.name
  xs : ∀ xs, x.xs = .ok xs ↔ DataOf env root n xs

/-- The parts of the world that the document describes. -/
structure DocumentOf (env : Env) (root : Xml) (doc : Document) : Prop where
  surfaces : ∃ n, Child root "surfaces" n ∧
    List.Forall₂ (SurfaceOf env) n.children doc.surfaces
  materials : ∃ n, Child root "materials" n ∧
    List.Forall₂ (MaterialOf env) n.children doc.materials
  nuclides : ∃ n k, Child root "nuclides" n ∧ n.children = [k] ∧
    List.Forall₂ (NuclideOf env root) k.children doc.nuclides
  cells : ∃ n, Child root "cells" n ∧ List.Forall₂ (CellNodeOf env) n.children doc.cells
  temperature : ∀ f, doc.temperature = some f ↔
    ∃ n, Child root "temperature" n ∧ FieldOf env n f

/-! ### Estimators, perturbations, source -/

/-- The bins that an element describes. -/
inductive BinsOf (env : Env) (n : Xml) : Bins → Prop where
  | linspace {k : Xml} {count : ℕ} {lo hi : ℝ} {b : Bins} : Child n "linspace" k →
      Count k "bins" count → Number env k "min" lo → Number env k "max" hi →
      Bins.createLinspace (min count (2 ^ 64 - 1)) lo hi = .ok b → BinsOf env n b
  | logspace {k : Xml} {count : ℕ} {base lo hi : ℝ} {b : Bins} : Child n "logspace" k →
      Count k "bins" count → Number env k "min" lo → Number env k "max" hi →
      (Number env k "base" base ∨ (¬ ∃ v, HasAttr k "base" v) ∧ base = 10) →
      Bins.createLogspace (min count (2 ^ 64 - 1)) base lo hi = .ok b → BinsOf env n b
  | boundaries {k : Xml} {xs : List ℝ} {b : Bins} : Child n "boundaries" k →
      Numbers env k.text xs → Bins.createBoundaries xs = .ok b → BinsOf env n b

/-- The bins of the child of `n` called `s`, a single one if there is no such child. -/
def AxisOf (env : Env) (n : Xml) (s : String) (b : Bins) : Prop :=
  (∃ c, Child n s c ∧ BinsOf env c b) ∨ (¬ ∃ c, Child n s c) ∧ b = .none

/-- `d` is the direction of the vector `(x, y, z)`. -/
def Along (x y z : ℝ) (d : Direction) : Prop :=
  d.x * d.x + d.y * d.y + d.z * d.z = 1 ∧ ∃ t : ℝ, 0 < t ∧ x = t * d.x ∧ y = t * d.y ∧ z = t * d.z

/-- The bins of the child of the estimator `n` called `bins`. -/
structure ParticleBinsOf (env : Env) (n : Xml) (b : ParticleBins) : Prop where
  axes : (∃ c, Child n "bins" c ∧ AxisOf env c "cosine" b.cosine ∧ AxisOf env c "energy" b.energy) ∨
    (¬ ∃ c, Child n "bins" c) ∧ b.cosine = .none ∧ b.energy = .none
  direction : (¬ (∃ c, Reaches n ["bins", "cosine"] c) ∧ b.direction = none) ∨
    ∃ c x y z d, Reaches n ["bins", "cosine"] c ∧ Number env c "u" x ∧ Number env c "v" y ∧
      Number env c "w" z ∧ Along x y z d ∧ b.direction = some d
  strides : b.strides = (b.energy.size, 1)

/-- The estimator that an element describes. -/
structure EstimatorNodeOf (env : Env) (n : Xml) (e : EstimatorNode) : Prop where
  isCurrent : e.isCurrent = true
  name : HasAttr n "name" e.name
  surface : HasAttr n "surface" e.surface
  bins : ∀ b, e.bins = .ok b ↔ ParticleBinsOf env n b
  sensitivities : ∃ cs, Grandchildren n "sensitivities" cs ∧
    List.Forall₂ (fun c s => HasAttrOrEmpty c "name" s) cs e.sensitivities

/-- The perturbation that an element describes. -/
structure PerturbationNodeOf (n : Xml) (q : PerturbationNode) : Prop where
  name : HasAttr n "name" q.name
  nuclide : HasAttr n "nuclide" q.nuclide

/-- The distribution of directions that an element describes. -/
inductive DirectionOf (env : Env) (n : Xml) : DirectionDist → Prop where
  | constant {k : Xml} {p : Point} {d : Direction} : Child n "constant" k → PointOf env k p →
      Along p.x p.y p.z d → DirectionOf env n (.constant d)
  | isotropic {k : Xml} : Child n "isotropic" k → DirectionOf env n .isotropic
  | isotropicFlux {k : Xml} {p : Point} {d : Direction} : Child n "isotropic-flux" k →
      PointOf env k p → Along p.x p.y p.z d → DirectionOf env n (.isotropicFlux d)

/-- The natural number at the start of a text. -/
def StartsWith (s : String) (v : ℕ) : Prop :=
  ∃ before sign digits after, s.toList = before ++ sign ++ digits ++ after ∧
    (∀ c ∈ before, Space c) ∧ (sign = [] ∨ sign = ['+']) ∧ digits ≠ [] ∧
    (∀ c ∈ digits, 48 ≤ c.toNat ∧ c.toNat ≤ 57) ∧
    (∀ c, after.head? = some c → ¬ (48 ≤ c.toNat ∧ c.toNat ≤ 57)) ∧
    v = Nat.ofDigits 10 (digits.reverse.map digit)

/-- Positive numbers are not written with a minus sign. -/
def Unsigned (env : Env) : Prop :=
  ∀ s x, env.real s = some x → 0 < x →
    ¬ ∃ before rest, s.toList = before ++ '-' :: rest ∧ ∀ c ∈ before, Space c

/-- The energy or group that an element describes. -/
inductive EnergyOf (env : Env) (root n : Xml) : Energy → Prop where
  | group {k c : Xml} {s : String} {v : ℕ} : Reaches root ["nuclides", "multigroup"] k →
      Child n "constant" c → HasAttr c "energy" s → StartsWith s v → v < 2 ^ 64 →
      EnergyOf env root n (.group v)
  | continuous {k c : Xml} {x : ℝ} : Reaches root ["nuclides", "continuous"] k →
      Child n "constant" c → Number env c "energy" x → EnergyOf env root n (.continuous x)

/-- The source that an element describes. -/
structure SourceOf (env : Env) (root n : Xml) (src : Source) : Prop where
  position : ∃ c, Reaches n ["position", "constant"] c ∧ PointOf env c src.position
  direction : ∃ c, Child n "direction" c ∧ DirectionOf env c src.direction
  energy : ∃ c, Child n "energy" c ∧ EnergyOf env root c src.energy
  type : ∃ c, Reaches n ["particletype", "constant"] c ∧ HasAttr c "type" (typeName src.type)

/-! ### The driver -/

/-- The world has the used surfaces, nuclides and materials, each once and in the order of their
first use, and the cells of the document. -/
structure WorldOf (doc : Document) (w : World) : Prop where
  surfaces : w.surfaces.map SurfaceObj.name = (usedSurfaces doc).eraseDups ∧
    ∀ s ∈ w.surfaces, ∃ n, FirstNamed SurfaceNode.name doc.surfaces s.name n ∧ s.shape = n.shape
  nuclides : ∃ xs, UsedNuclides doc (usedMaterials doc) xs ∧
    w.nuclides.map Nuclide.name = xs.eraseDups ∧
    ∀ n ∈ w.nuclides, ∃ node, FirstNamed NuclideNode.name doc.nuclides n.name node ∧
      node.xs = .ok n.xs
  materials : w.materials.map Material.name = (usedMaterials doc).eraseDups ∧
    ∀ m ∈ w.materials, ∃ node, FirstNamed MaterialNode.name doc.materials m.name node ∧
      Composition w.nuclides node.nuclides m ∧ m.numberDensity = node.aden
  cells : List.Forall₂ (CellOf w.surfaces w.materials w.temperature) doc.cells w.cells
  temperature : w.temperature = doc.temperature.getD (.constant 293.6)

/-- The elements of the document, as far as they describe something on their own. -/
structure Parts (env : Env) (root : Xml) where
  doc : Document
  perturbations : List PerturbationNode
  estimators : List EstimatorNode
  histories : ℕ
  threads : ℕ
  seed : ℕ
  delta : Prop
  isDocument : DocumentOf env root doc
  arePerturbations : ∃ cs, Grandchildren root "perturbations" cs ∧
    List.Forall₂ PerturbationNodeOf cs perturbations
  areEstimators : ∃ cs, Grandchildren root "estimators" cs ∧
    List.Forall₂ (EstimatorNodeOf env) cs estimators
  areHistories : ∃ n, Reaches root ["general", "histories"] n ∧ Denotes n.text histories
  areThreads : ∃ n, Reaches root ["general", "threads"] n ∧ Denotes n.text threads
  isSeed : (∃ n, Reaches root ["general", "seed"] n ∧ Denotes n.text seed) ∨
    (¬ ∃ n, Reaches root ["general", "seed"] n) ∧ seed = 1
  isDelta : delta ↔ ∃ n, Reaches root ["general", "tracking"] n ∧ n.text = "cell delta"

/-- The element that describes the source: that of a fixed-source or of an eigenvalue problem. -/
def SourceElement (root : Xml) (eigen : Prop) (n : Xml) : Prop :=
  (¬ eigen ∧ Reaches root ["problemtype", "fixedsource"] n) ∨
    (eigen ∧ Reaches root ["problemtype", "keigenvalue", "initialsource"] n)

/-- What has to hold for a driver to be made: names are defined (and what refers to the world is
used there), numbers fit, and surface tracking is only asked for with a constant temperature. -/
structure Buildable {env : Env} {root : Xml} (parts : Parts env root) : Prop where
  defined : AllDefined parts.doc
  nuclides : ∀ q ∈ parts.perturbations, ∃ xs,
    UsedNuclides parts.doc (usedMaterials parts.doc) xs ∧ q.nuclide ∈ xs
  surfaces : ∀ e ∈ parts.estimators, e.surface ∈ usedSurfaces parts.doc
  sensitivities : ∀ e ∈ parts.estimators, ∀ s ∈ e.sensitivities,
    ∃ q ∈ parts.perturbations, q.name = s
  bins : ∀ e ∈ parts.estimators, ∃ b, e.bins = .ok b
  histories : parts.histories < 2 ^ 31
  seed : parts.seed < 2 ^ 31
  threads : parts.threads < 2 ^ 64
  tracking : parts.delta ∨ ∀ f, parts.doc.temperature = some f → f.isConstant = true
  source : ∃ eigen n src, SourceElement root eigen n ∧ SourceOf env root n src

/-- The driver that the document describes. -/
structure ProblemOf {env : Env} {root : Xml} (parts : Parts env root) (P : Problem) : Prop where
  world : WorldOf parts.doc P.world
  perturbations : List.Forall₂ (PerturbationOf P.world) parts.perturbations P.perturbations
  estimators : List.Forall₂ (EstimatorOf P.world P.perturbations) parts.estimators
    P.init.estimators
  weight : P.init.totalWeight = parts.histories
  batchsize : P.batchsize = parts.histories
  seed : P.seed = parts.seed
  threads : P.threads = parts.threads
  method : (parts.delta → P.method = .cellDeltaTracking) ∧
    (¬ parts.delta → P.method = .surfaceTracking)
  source : ∃ eigen n, SourceElement root eigen n ∧ SourceOf env root n P.source

/-- The kind of driver: for an eigenvalue problem also the last inactive and the last active cycle,
counted from one, and the particles of the first one. -/
inductive DriverOf {env : Env} {root : Xml} (parts : Parts env root) : Input.Created → Prop where
  | fixedSource {n : Xml} {P : Problem} : Reaches root ["problemtype", "fixedsource"] n →
      ProblemOf parts P → DriverOf parts (.fixedSource P)
  | keigenvalue {n : Xml} {P : Problem} {inactive active : ℕ} {bank : Bank} :
      Reaches root ["problemtype", "keigenvalue"] n → ProblemOf parts P →
      Count n "inactive" inactive → Count n "active" active →
      keigenSourceBank P.source P.batchsize = .ok bank →
      DriverOf parts (.keigenvalue P (min inactive (2 ^ 32 - 1))
        (min inactive (2 ^ 32 - 1) + min active (2 ^ 32 - 1)) bank)

/-- What makes the creation of a driver fail, and how the program then ends. -/
inductive Fails {env : Env} {root : Xml} (parts : Parts env root) : Err → Prop where
  | undefined : ¬ AllDefined parts.doc → Fails parts .runtimeError
  | unreadable {e : Err} : Unreadable parts.doc e → Fails parts e
  | nuclide {q : PerturbationNode} : q ∈ parts.perturbations →
      (¬ ∃ xs, UsedNuclides parts.doc (usedMaterials parts.doc) xs ∧ q.nuclide ∈ xs) →
      Fails parts .terminate
  | histories : 2 ^ 31 ≤ parts.histories → Fails parts .outOfRange
  | seed : 2 ^ 31 ≤ parts.seed → Fails parts .outOfRange
  | threads : 2 ^ 64 ≤ parts.threads → Fails parts .outOfRange
  | surface {e : EstimatorNode} : e ∈ parts.estimators → e.surface ∉ usedSurfaces parts.doc →
      Fails parts .runtimeError
  | sensitivity {e : EstimatorNode} {s : String} : e ∈ parts.estimators → s ∈ e.sensitivities →
      (¬ ∃ q ∈ parts.perturbations, q.name = s) → Fails parts .terminate
  | bins {e : EstimatorNode} : e ∈ parts.estimators → (¬ ∃ b, e.bins = .ok b) →
      Fails parts .terminate
  | axis {cs : List Xml} {n c : Xml} : Grandchildren root "estimators" cs → n ∈ cs →
      Reaches n ["bins", "cosine"] c → Number env c "u" 0 → Number env c "v" 0 →
      Number env c "w" 0 → Fails parts .nan
  | tracking {f : ScalarField} : ¬ parts.delta → parts.doc.temperature = some f →
      f.isConstant = false → Fails parts .runtimeError
  | direction {eigen : Prop} {n c k : Xml} : SourceElement root eigen n → Child n "direction" c →
      k ∈ c.children → PointOf env k ⟨0, 0, 0⟩ → Fails parts .nan
  | group {eigen : Prop} {n k c : Xml} {s : String} : SourceElement root eigen n →
      Reaches root ["nuclides", "multigroup"] k → Reaches n ["energy", "constant"] c →
      HasAttr c "energy" s → (¬ ∃ v, StartsWith s v) → Fails parts .runtimeError
  | groupRange {eigen : Prop} {n k c : Xml} {s : String} {v : ℕ} : SourceElement root eigen n →
      Reaches root ["nuclides", "multigroup"] k → Reaches n ["energy", "constant"] c →
      HasAttr c "energy" s → StartsWith s v → 2 ^ 64 ≤ v → Fails parts .outOfRange
  | type {eigen : Prop} {n c : Xml} : SourceElement root eigen n →
      Reaches n ["particletype", "constant"] c → (¬ ∃ v, HasAttr c "type" v) →
      Fails parts .assertFail

end Minimc.Spec
