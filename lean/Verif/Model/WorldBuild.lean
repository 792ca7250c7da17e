import Verif.Model.Material
import Verif.Model.Geometry

/-!
# Construction of the world (World.cpp, Cell.cpp, CSGSurface.cpp)

The parsed document is modelled by the values that the constructors read from it.  Objects get
their address from the functions `surfaceAddr` and `nuclideAddr`, which give the address of the
n-th object created; theorems quantify over them.
-/

namespace Minimc

/-- A child of the `surfaces` node (CSGSurface.cpp:17-19); the derived class and its data are
read by the constructors (CSGSurface.cpp:33-43, 103-105, 122-123, 144-146). -/
structure SurfaceNode where
  name : String
  shape : Surface

/-- A child of the `materials` node (Material.cpp:16-33, 39, 70-80). -/
structure MaterialNode where
  name : String
  aden : ℝ
  nuclides : List (String × ℝ)

/-- A child of the node for the energy type below `nuclides` (World.cpp:123-125); `xs` is the
outcome of `Interaction::Create` on it (Nuclide.cpp:13-14). -/
structure NuclideNode where
  name : String
  xs : Res (ParticleType → Option Interaction)

/-- Value of the `sense` attribute (Cell.cpp:72-82). -/
inductive Sense where
  | minus
  | plus
  | other
deriving DecidableEq, Repr

/-- A child of the `cells` node (World.cpp:88-89, 108, 112; Cell.cpp:22, 92, 109-111).  `name` is
`none` when the attribute is absent. -/
structure CellNode where
  isVoid : Bool
  name : Option String
  material : String
  temperature : Option ℝ
  surfaces : List (String × Sense)

/-- The parts of the document that `World::World` reads (World.cpp:20-24). -/
structure Document where
  surfaces : List SurfaceNode
  materials : List MaterialNode
  nuclides : List NuclideNode
  temperature : Option ScalarField
  cells : List CellNode

namespace WorldBuild

/-- `CSGSurface::Create` (CSGSurface.cpp:15-45) at address `id`. -/
def createSurface (doc : Document) (id : ℕ) (name : String) : Res SurfaceObj :=
  match doc.surfaces.find? (fun n => n.name == name) with
  | none => .error .runtimeError
  | some n => .ok ⟨id, n.name, n.shape⟩

/-- The body of the inner loop of `CreateCSGSurfaces` (World.cpp:90-98) over the remaining
surface names. -/
def addSurfaces (doc : Document) (addr : ℕ → ℕ) :
    List SurfaceObj → List String → Res (List SurfaceObj)
  | all, [] => .ok all
  | all, name :: names =>
    if all.any (fun s => s.name == name) then addSurfaces doc addr all names
    else do
      let s ← createSurface doc (addr all.length) name
      addSurfaces doc addr (all ++ [s]) names

/-- `World::CreateCSGSurfaces` (World.cpp:85-102): the two nested loops visit the surface nodes
of all cells in document order. -/
def createSurfaces (doc : Document) (addr : ℕ → ℕ) : Res (List SurfaceObj) :=
  addSurfaces doc addr [] (doc.cells.flatMap (fun c => c.surfaces.map Prod.fst))

/-- `Material::FindNode` (Material.cpp:16-33). -/
def findMaterialNode (doc : Document) (name : String) : Res MaterialNode :=
  match doc.materials.find? (fun n => n.name == name) with
  | none => .error .runtimeError
  | some n => .ok n

/-- Construction of one nuclide (World.cpp:122-140, Nuclide.cpp:12-14). -/
def createNuclide (doc : Document) (id : ℕ) (name : String) : Res Nuclide :=
  match doc.nuclides.find? (fun n => n.name == name) with
  | none => .error .runtimeError
  | some n => do
    let xs ← n.xs
    .ok ⟨id, n.name, xs⟩

/-- The inner loop of `CreateNuclides` (World.cpp:114-142). -/
def addNuclides (doc : Document) (addr : ℕ → ℕ) :
    List Nuclide → List String → Res (List Nuclide)
  | all, [] => .ok all
  | all, name :: names =>
    if all.any (fun n => n.name == name) then addNuclides doc addr all names
    else do
      let n ← createNuclide doc (addr all.length) name
      addNuclides doc addr (all ++ [n]) names

/-- The outer loop of `CreateNuclides` (World.cpp:107-143). -/
def addCellNuclides (doc : Document) (addr : ℕ → ℕ) :
    List Nuclide → List CellNode → Res (List Nuclide)
  | all, [] => .ok all
  | all, c :: cells =>
    if c.isVoid then addCellNuclides doc addr all cells
    else do
      let m ← findMaterialNode doc c.material
      let all' ← addNuclides doc addr all (m.nuclides.map Prod.fst)
      addCellNuclides doc addr all' cells

/-- `World::CreateNuclides` (World.cpp:104-145). -/
def createNuclides (doc : Document) (addr : ℕ → ℕ) : Res (List Nuclide) :=
  addCellNuclides doc addr [] doc.cells

/-- `Material::Material(root, name, all_nuclides)` (Material.cpp:35-39, 67-69). -/
noncomputable def createMaterial (doc : Document) (all : List Nuclide) (name : String) :
    Res Material := do
  let node ← findMaterialNode doc name
  Material.create name all node.nuclides node.aden

/-- `World::CreateMaterials` (World.cpp:147-168): loop over the remaining cells. -/
noncomputable def addMaterials (doc : Document) (nuclides : List Nuclide) :
    List Material → List CellNode → Res (List Material)
  | all, [] => .ok all
  | all, c :: cells =>
    if c.isVoid then addMaterials doc nuclides all cells
    else if all.any (fun m => m.name == c.material) then addMaterials doc nuclides all cells
    else do
      let m ← createMaterial doc nuclides c.material
      addMaterials doc nuclides (all ++ [m]) cells

/-- `constants::room_temperature` (Constants.hpp:22). -/
noncomputable def roomTemperature : ℝ := 293.6

/-- `World::CreateTemperature` (World.cpp:170-177). -/
noncomputable def createTemperature (doc : Document) : ScalarField :=
  match doc.temperature with
  | none => .constant roomTemperature
  | some f => f

/-- `Cell::AssignSurfaceSenses` (Cell.cpp:57-86): loop over the remaining surface nodes. -/
def assignSurfaceSenses (all : List SurfaceObj) :
    List (SurfaceObj × Bool) → List (String × Sense) → Res (List (SurfaceObj × Bool))
  | m, [] => .ok m
  | m, (name, sense) :: nodes =>
    match all.find? (fun s => s.name == name) with
    | none => .error .assertFail
    | some s =>
      match sense with
      | .minus => assignSurfaceSenses all (emplaceByAddr SurfaceObj.id s true m) nodes
      | .plus => assignSurfaceSenses all (emplaceByAddr SurfaceObj.id s false m) nodes
      | .other => .error .assertFail

/-- `Cell::AssignMaterial` (Cell.cpp:88-104). -/
def assignMaterial (c : CellNode) (all : List Material) : Res (Option Material) :=
  match c.name with
  | none => .ok none
  | some _ =>
    match all.find? (fun m => m.name == c.material) with
    | none => .error .assertFail
    | some m => .ok (some m)

/-- `Cell::AssignTemperature` (Cell.cpp:106-113). -/
def assignTemperature (c : CellNode) (globalTemperature : ScalarField) : ScalarField :=
  match c.temperature with
  | some t => .constant t
  | none => globalTemperature

/-- `Cell` constructor (Cell.cpp:18-25); the name of a cell without the attribute is empty. -/
def createCell (c : CellNode) (surfaces : List SurfaceObj) (materials : List Material)
    (globalTemperature : ScalarField) : Res Cell := noexcept do
  let senses ← assignSurfaceSenses surfaces [] c.surfaces
  let material ← assignMaterial c materials
  .ok ⟨c.name.getD "", senses, material, assignTemperature c globalTemperature⟩

/-- `World::CreateCells` (World.cpp:179-189): loop over the cells. -/
def createCells (surfaces : List SurfaceObj) (materials : List Material)
    (globalTemperature : ScalarField) (cells : List CellNode) : Res (List Cell) := noexcept <|
  cells.mapM (fun c => createCell c surfaces materials globalTemperature)

/-- `World::World` (World.cpp:20-24); the members are initialised in the order of their
declaration (World.hpp:73-83). -/
noncomputable def create (doc : Document) (surfaceAddr nuclideAddr : ℕ → ℕ) : Res World := do
  let surfaces ← createSurfaces doc surfaceAddr
  let nuclides ← createNuclides doc nuclideAddr
  let materials ← addMaterials doc nuclides [] doc.cells
  let temperature := createTemperature doc
  let cells ← createCells surfaces materials temperature doc.cells
  .ok ⟨surfaces, nuclides, materials, temperature, cells⟩

end WorldBuild
end Minimc
