import Verif.Spec.World
import Verif.Spec.Transport
import Verif.Spec.Input

/-! # Specification of documents that differ in the order of their elements -/

namespace Minimc.Spec

/-- The members of one list are those of the other in some order, up to `R`. -/
def UpToOrder {α : Type} (R : α → α → Prop) (l l' : List α) : Prop :=
  ∃ m, l.Perm m ∧ List.Forall₂ R m l'

/-- The same material, its nuclides in some order. -/
structure SameMaterialNode (m m' : MaterialNode) : Prop where
  name : m.name = m'.name
  aden : m.aden = m'.aden
  nuclides : m.nuclides.Perm m'.nuclides

/-- The same cell, its surfaces in some order. -/
structure SameCellNode (c c' : CellNode) : Prop where
  isVoid : c.isVoid = c'.isVoid
  name : c.name = c'.name
  material : c.material = c'.material
  temperature : c.temperature = c'.temperature
  surfaces : c.surfaces.Perm c'.surfaces

/-- The same document, its surfaces, materials, nuclides and cells, the nuclides of its materials
and the surfaces of its cells in some order. -/
structure Reordered (doc doc' : Document) : Prop where
  surfaces : doc.surfaces.Perm doc'.surfaces
  materials : UpToOrder SameMaterialNode doc.materials doc'.materials
  nuclides : doc.nuclides.Perm doc'.nuclides
  temperature : doc.temperature = doc'.temperature
  cells : UpToOrder SameCellNode doc.cells doc'.cells

/-- No two surfaces, materials or nuclides have one name, and no material or cell mentions a name
twice. -/
structure UniqueNames (doc : Document) : Prop where
  surfaces : (doc.surfaces.map SurfaceNode.name).Nodup
  materials : (doc.materials.map MaterialNode.name).Nodup
  nuclides : (doc.nuclides.map NuclideNode.name).Nodup
  fractions : ∀ m ∈ doc.materials, (m.nuclides.map Prod.fst).Nodup
  senses : ∀ c ∈ doc.cells, (c.surfaces.map Prod.fst).Nodup

/-- The same world: exactly the same objects, listed in some order. -/
structure ReorderedWorld (w w' : World) : Prop where
  surfaces : w.surfaces.Perm w'.surfaces
  nuclides : w.nuclides.Perm w'.nuclides
  materials : w.materials.Perm w'.materials
  temperature : w.temperature = w'.temperature
  cells : w.cells.Perm w'.cells

/-- No point is in two cells. -/
def Separate (w : World) : Prop :=
  w.cells.Pairwise (fun c c' => ¬ ∃ x, InCell c x ∧ InCell c' x)

/-- The same element, its children in some order. -/
structure SameElement (n n' : Xml) : Prop where
  name : n.name = n'.name
  attrs : n.attrs = n'.attrs
  text : n.text = n'.text
  children : n.children.Perm n'.children

/-- Two documents that differ in nothing but the order in which surfaces, materials, nuclides and
cells are listed, and nuclides in a material and surfaces in a cell. -/
structure OnlyOrder (root root' : Xml) : Prop where
  sections : ∀ s, s ≠ "surfaces" → s ≠ "materials" → s ≠ "nuclides" → s ≠ "cells" →
    ∀ n, Child root s n ↔ Child root' s n
  surfaces : ∀ n n', Child root "surfaces" n → Child root' "surfaces" n' →
    n.children.Perm n'.children
  materials : ∀ n n', Child root "materials" n → Child root' "materials" n' →
    UpToOrder SameElement n.children n'.children
  nuclides : ∀ n n' k k', Child root "nuclides" n → Child root' "nuclides" n' →
    n.children = [k] → n'.children = [k'] → SameElement k k'
  cells : ∀ n n', Child root "cells" n → Child root' "cells" n' →
    UpToOrder SameElement n.children n'.children

/-- What the schema does not ask for: no two nuclides have one name, and no void mentions a surface
twice. -/
structure ListedOnce (root : Xml) : Prop where
  nuclides : ∀ n k, Child root "nuclides" n → n.children = [k] →
    (k.children.map (fun c => c.attrString "name")).Nodup
  voids : ∀ n, Child root "cells" n → ∀ c ∈ n.children, c.name = "void" →
    (c.children.map (fun s => s.attrString "name")).Nodup

end Minimc.Spec
