import Verif.Model.Types
import Mathlib.Data.List.Basic

/-! # Objects that are the same except for where they are placed in memory -/

namespace Minimc.Spec

/-- Same surface at possibly different addresses. -/
structure SameSurface (s s' : SurfaceObj) : Prop where
  name : s.name = s'.name
  shape : s.shape = s'.shape

/-- Same nuclide at possibly different addresses. -/
structure SameNuclide (n n' : Nuclide) : Prop where
  name : n.name = n'.name
  xs : n.xs = n'.xs

/-- Same material: the nuclides and their fractions agree, but not necessarily their order. -/
structure SameMaterial (m m' : Material) : Prop where
  name : m.name = m'.name
  density : m.numberDensity = m'.numberDensity
  fractions : (m.afracs.map (fun e => (e.1.name, e.1.xs, e.2))).Perm
    (m'.afracs.map (fun e => (e.1.name, e.1.xs, e.2)))

/-- Same cell: the surfaces and their senses agree, but not necessarily their order. -/
structure SameCell (c c' : Cell) : Prop where
  name : c.name = c'.name
  temperature : c.temperature = c'.temperature
  surfaces : (c.surfaceSenses.map (fun e => (e.1.name, e.1.shape, e.2))).Perm
    (c'.surfaceSenses.map (fun e => (e.1.name, e.1.shape, e.2)))
  material : Option.Rel SameMaterial c.material c'.material

/-- Same world. -/
structure SameWorld (w w' : World) : Prop where
  surfaces : List.Forall₂ SameSurface w.surfaces w'.surfaces
  nuclides : List.Forall₂ SameNuclide w.nuclides w'.nuclides
  materials : List.Forall₂ SameMaterial w.materials w'.materials
  temperature : w.temperature = w'.temperature
  cells : List.Forall₂ SameCell w.cells w'.cells

end Minimc.Spec
