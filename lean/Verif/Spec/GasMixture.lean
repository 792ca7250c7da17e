import Verif.Spec.GasWalk
import Verif.Spec.Mixture

/-!
# Specification: the same gases, written in another way

Nuclides whose tables have the same values, though not the same entries, and gases that are made of such
nuclides.
-/

namespace Minimc.Spec

/-- Reactions that do the same to neutrons at temperature `t`: those of one kind, with the same cross section
for all energies, atoms of the same mass and the same yields. -/
def SameReaction (t : ℝ) (r r' : ContinuousReaction) : Prop :=
  (∀ e, 0 < e → reactionXS t e r' = reactionXS t e r) ∧
    match r, r' with
    | .capture _, .capture _ => True
    | .scatter _ _ A, .scatter _ _ A' => A' = A
    | .fission _ nubar, .fission _ nubar' => ∀ e, 0 < e → yieldAt nubar' e = yieldAt nubar e
    | _, _ => False

/-- Data with such reactions, one by one.  The tables of totals may differ. -/
def SameData (t : ℝ) (d d' : Continuous) : Prop := List.Forall₂ (SameReaction t) d.reactions d'.reactions

/-- `l'` is `l` with each nuclide replaced by any number of nuclides with such data, one after the other.
Their fractions add up to its own, up to a factor. -/
inductive DividedAtoms (t : ℝ) (data data' : Nuclide → Continuous) (factor : ℝ) :
    List (Nuclide × ℝ) → List (Nuclide × ℝ) → Prop where
  | nil : DividedAtoms t data data' factor [] []
  | cons {x : Nuclide × ℝ} {parts l l' : List (Nuclide × ℝ)} :
      (∀ p ∈ parts, 0 ≤ p.2 ∧ SameData t (data x.1) (data' p.1)) →
      (parts.map Prod.snd).sum = factor * x.2 →
      DividedAtoms t data data' factor l l' → DividedAtoms t data data' factor (x :: l) (parts ++ l')

/-- The nuclides of the second gas are those of the first one, divided.  If all fractions are multiplied by
a factor, the density is divided by it. -/
def DividedGas (t : ℝ) (data data' : Nuclide → Continuous) (m m' : Material) : Prop :=
  ∃ factor, 0 < factor ∧ m'.numberDensity * factor = m.numberDensity ∧
    DividedAtoms t data data' factor m.afracs m'.afracs

/-- Cells of the same shape that are both void, or filled with such gases of the same temperature. -/
structure SameGasCell (data data' : Nuclide → Continuous) (c c' : Cell) : Prop where
  matter : CellsAlike (DividedGas (heat c) data data') c c'
  temperature : c.material ≠ none → heat c' = heat c

/-- Worlds whose cells are related in this way, one by one. -/
def SameGases (data data' : Nuclide → Continuous) (w w' : World) : Prop :=
  List.Forall₂ (SameGasCell data data') w.cells w'.cells

end Minimc.Spec
