import Verif.Spec.Mixture
import Verif.Spec.Chain

/-!
# Specification: units and normalisation of group data

Two ways to write down the same nuclides: with cross sections in other units, which the atomic fractions
make up for, and with spectra of another norm.
-/

namespace Minimc.Spec

/-- The second data say the same as the first, with cross sections in a unit that is `k` times smaller:
reactions and transfers.  Yields are the same, and spectra are multiplied by any number, unless there is no
fission. -/
structure Restated (G : ℕ) (k : ℝ) (data data' : List MgNode) : Prop where
  reaction : ∀ r g, 1 ≤ g → g ≤ G → specXS G data' r g = k * specXS G data r g
  transfer : ∀ g g', 1 ≤ g → g ≤ G → 1 ≤ g' → g' ≤ G →
    entry2 G (scatterTable data') g g' = k * entry2 G (scatterTable data) g g'
  yield : ∀ g, 1 ≤ g → g ≤ G → 0 < specXS G data .fission g →
    entry1 (nubarTable data') g = entry1 (nubarTable data) g
  spectrum : ∀ g, 1 ≤ g → g ≤ G → 0 < specXS G data .fission g → ∃ s : ℝ, 0 < s ∧
    ∀ g', 1 ≤ g' → g' ≤ G → entry2 G (chiTable data') g g' = s * entry2 G (chiTable data) g g'

/-- The nuclides of the second material are those of the first one, one by one, each restated in its own
unit.  Fractions make up for the unit and, together with the density, for a common factor. -/
def RestatedMaterial (G : ℕ) (nodes nodes' : Nuclide → List MgNode) (m m' : Material) : Prop :=
  ∃ factor, 0 < factor ∧ m'.numberDensity * factor = m.numberDensity ∧
    List.Forall₂ (fun e e' : Nuclide × ℝ => ∃ k, 0 < k ∧ Restated G k (nodes e.1) (nodes' e'.1) ∧
      e'.2 * k = factor * e.2) m.afracs m'.afracs

/-- The node with cross sections multiplied by `k` and spectra multiplied by `s`. -/
noncomputable def scaledNode (k s : ℝ) : MgNode → MgNode
  | .capture xs => .capture (xs.map (k * ·))
  | .scatter flat => .scatter (flat.map (k * ·))
  | .fission nubar chi xs => .fission nubar (chi.map fun l => l.map (s * ·)) (xs.map (k * ·))

end Minimc.Spec
