import Verif.Spec.Attenuation
import Verif.Spec.Score
import Mathlib.Analysis.Calculus.Deriv.Basic

/-! # Specification: how the current of uncollided neutrons depends on the cross section of a nuclide -/

namespace Minimc

/-- The material with other data for its nuclides. -/
def Material.changed (φ : Nuclide → Nuclide) (m : Material) : Material :=
  { m with afracs := m.afracs.map fun e => (φ e.1, e.2) }

/-- The cell with other data for the nuclides in it. -/
def Cell.changed (φ : Nuclide → Nuclide) (c : Cell) : Cell :=
  { c with material := c.material.map (Material.changed φ) }

/-- The world with other data for its nuclides. -/
def World.changed (φ : Nuclide → Nuclide) (w : World) : World :=
  { w with
    nuclides := w.nuclides.map φ
    materials := w.materials.map (Material.changed φ)
    cells := w.cells.map (Cell.changed φ) }

end Minimc

namespace Minimc.Spec

open Classical

/-- Atoms of the nuclide per unit volume in the material of a part of the way. -/
noncomputable def atoms (nuclide : ℕ) (r : Slice) : ℝ :=
  match r.cell.material with
  | none => 0
  | some m => m.numberDensity * (m.afracs.map fun e => if e.1.id = nuclide then e.2 else 0).sum

/-- The part of the way is in a material with the nuclide. -/
def HoldsNuclide (nuclide : ℕ) (r : Slice) : Prop :=
  ∃ m, r.cell.material = some m ∧ ∃ e ∈ m.afracs, e.1.id = nuclide

/-- Number density of the material of a part of the way. -/
noncomputable def allAtoms (r : Slice) : ℝ :=
  match r.cell.material with
  | none => 0
  | some m => m.numberDensity

/-- The part of the way if the cross section of each atom of the nuclide were greater by `δ`. -/
noncomputable def Slice.shifted (nuclide : ℕ) (δ : ℝ) (r : Slice) : Slice :=
  { r with rate := r.rate + δ * atoms nuclide r }

/-- The mean number of crossings of the surface by neutrons without collision on the way. -/
noncomputable def meanPassages (rs : List Slice) (d : Direction) (surface : SurfaceObj) : ℝ :=
  ∑ k ∈ Finset.range rs.length, if ∃ r, rs[k]? = some r ∧ EndsAt r d surface then
    Real.exp (-opticalDepth (rs.take (k + 1))) else 0

/-- The mean number of crossings if the cross section of each atom of the nuclide were greater by
`δ`. -/
noncomputable def shiftedPassages (nuclide : ℕ) (rs : List Slice) (d : Direction)
    (surface : SurfaceObj) (δ : ℝ) : ℝ :=
  meanPassages (rs.map fun r => r.shifted nuclide δ) d surface

/-- What the program credits to a perturbation of the nuclide for a part of the way: in materials with
the nuclide the reciprocal of the mean cross section of the atoms minus the length with the short step
beyond the surface. -/
noncomputable def credit (nuclide : ℕ) (r : Slice) : ℝ :=
  if HoldsNuclide nuclide r then allAtoms r / r.rate - (r.length + 10 / 2 ^ 52) else 0

/-- What the program credits for a way. -/
noncomputable def credits (nuclide : ℕ) (rs : List Slice) : ℝ := (rs.map (credit nuclide)).sum

/-- The sum of the credits at the crossings of the surface by a neutron whose flights are made of the
numbers. -/
noncomputable def creditedPassages (method : Method) (nuclide : ℕ) (rs : List Slice) (d : Direction)
    (surface : SurfaceObj) (us : ℕ → ℝ) : ℝ :=
  ∑ k ∈ Finset.range rs.length,
    if (∃ r, rs[k]? = some r ∧ EndsAt r d surface) ∧ Clears method (rs.take (k + 1)) us then
      credits nuclide (rs.take (k + 1)) else 0

/-- The mean of that sum. -/
noncomputable def meanCredits (nuclide : ℕ) (rs : List Slice) (d : Direction)
    (surface : SurfaceObj) : ℝ :=
  ∑ k ∈ Finset.range rs.length, if ∃ r, rs[k]? = some r ∧ EndsAt r d surface then
    credits nuclide (rs.take (k + 1)) * Real.exp (-opticalDepth (rs.take (k + 1))) else 0

/-- Atoms of the nuclide on the way, per unit area. -/
noncomputable def atomsPassed (nuclide : ℕ) (rs : List Slice) : ℝ :=
  (rs.map fun r => atoms nuclide r * r.length).sum

/-- The part of the way is in a material of only the nuclide with unit number density. -/
def OnlyOf (nuclide : ℕ) (r : Slice) : Prop :=
  ∃ m e, r.cell.material = some m ∧ m.afracs = [e] ∧ e.1.id = nuclide ∧ e.2 = 1 ∧ m.numberDensity = 1

end Minimc.Spec
