import Verif.Model.WorldBuild

/-! # Specification of a world built from a document -/

namespace Minimc.Spec

/-- `n` is the first of `nodes` that is called `name`. -/
def FirstNamed {α : Type} (nm : α → String) (nodes : List α) (name : String) (n : α) : Prop :=
  ∃ l r, nodes = l ++ n :: r ∧ nm n = name ∧ ∀ m ∈ l, nm m ≠ name

/-- What a correctly built material contains: each nuclide once, in address order; the nuclides
are those named; the fractions sum to one; and for any two nuclides they are in the ratio of the
input. -/
structure Composition (all : List Nuclide) (nodes : List (String × ℝ)) (m : Material) : Prop where
  once : (m.afracs.map (fun e => e.1.id)).Pairwise (· < ·)
  members : ∀ n, n ∈ m.afracs.map Prod.fst ↔ n ∈ all ∧ n.name ∈ nodes.map Prod.fst
  sum_one : nodes ≠ [] → (m.afracs.map Prod.snd).sum = 1
  ratio : ∀ n f n' f' x x', (n, f) ∈ m.afracs → (n', f') ∈ m.afracs →
    FirstNamed Prod.fst nodes n.name (n.name, x) →
    FirstNamed Prod.fst nodes n'.name (n'.name, x') → f * x' = f' * x
  positive : ∀ e ∈ m.afracs, 0 < e.2

/-- What the XML schema guarantees of a document: senses are `-1` or `+1`, a void has no name and
other cells have one, and atomic fractions are positive. -/
structure WellFormed (doc : Document) : Prop where
  senses : ∀ c ∈ doc.cells, ∀ s ∈ c.surfaces, s.2 ≠ .other
  names : ∀ c ∈ doc.cells, (c.isVoid = true ↔ c.name = none)
  afracs : ∀ m ∈ doc.materials, ∀ n ∈ m.nuclides, 0 < n.2

/-- Every surface, material and nuclide that is used has a definition, and the cross sections of
every used nuclide can be read. -/
structure AllDefined (doc : Document) : Prop where
  surfaces : ∀ c ∈ doc.cells, ∀ s ∈ c.surfaces, ∃ n ∈ doc.surfaces, n.name = s.1
  materials : ∀ c ∈ doc.cells, c.isVoid = false →
    ∃ m, FirstNamed MaterialNode.name doc.materials c.material m ∧
      ∀ x ∈ m.nuclides, ∃ n, FirstNamed NuclideNode.name doc.nuclides x.1 n ∧
        ∃ xs, n.xs = .ok xs

/-- Reading the cross sections of some used nuclide ends in `e`. -/
def Unreadable (doc : Document) (e : Err) : Prop :=
  ∃ c ∈ doc.cells, c.isVoid = false ∧
    ∃ m, FirstNamed MaterialNode.name doc.materials c.material m ∧
      ∃ x ∈ m.nuclides, ∃ n, FirstNamed NuclideNode.name doc.nuclides x.1 n ∧ n.xs = .error e

/-- Names of the surfaces of all cells, in document order. -/
def usedSurfaces (doc : Document) : List String :=
  (doc.cells.map (fun c => c.surfaces.map Prod.fst)).flatten

/-- Names of the materials of all cells that are not void, in document order. -/
def usedMaterials (doc : Document) : List String :=
  (doc.cells.filter (fun c => !c.isVoid)).map CellNode.material

/-- `xs` are the names of the nuclides of the materials `ms`, in document order. -/
inductive UsedNuclides (doc : Document) : List String → List String → Prop where
  | nil : UsedNuclides doc [] []
  | cons {m : String} {ms : List String} {node : MaterialNode} {xs : List String} :
      FirstNamed MaterialNode.name doc.materials m node → UsedNuclides doc ms xs →
      UsedNuclides doc (m :: ms) (node.nuclides.map Prod.fst ++ xs)

/-- The first sense given for the surface `name` among the nodes of a cell. -/
def FirstSense (nodes : List (String × Sense)) (name : String) (b : Bool) : Prop :=
  ∃ s, FirstNamed Prod.fst nodes name (name, s) ∧ ((s = .minus ∧ b = true) ∨ (s = .plus ∧ b = false))

/-- `c` is the cell described by `node` in a world with the given surfaces and materials. -/
structure CellOf (surfaces : List SurfaceObj) (materials : List Material) (t : ScalarField)
    (node : CellNode) (c : Cell) : Prop where
  name : c.name = node.name.getD ""
  senses : ∀ s b, (s, b) ∈ c.surfaceSenses ↔ s ∈ surfaces ∧ FirstSense node.surfaces s.name b
  once : (c.surfaceSenses.map (fun e => e.1.id)).Pairwise (· < ·)
  void : node.isVoid = true → c.material = none
  material : node.isVoid = false →
    ∃ m ∈ materials, c.material = some m ∧ m.name = node.material
  temperature : c.temperature = match node.temperature with
    | some x => .constant x
    | none => t

end Minimc.Spec
