import Verif.Spec.Chain
import Mathlib.Algebra.BigOperators.Group.Finset.Basic

/-!
# Specification: problems in which neutrons die out

How many flights a neutron and its descendants make, and what it means that a collision leaves fewer
neutrons than it takes.
-/

namespace Minimc.Spec

open Classical MeasureTheory
open scoped ENNReal

/-! ### Flights -/

/-- How many flights a neutron and its descendants make in the first rounds.  In a cell without material
there is no flight. -/
noncomputable def flightsMade {σ : Type} (S : Supply σ) (G : ℕ) (nodes : Nuclide → List MgNode)
    (w : World) (method : Method) : ℕ → Cell → Point → Direction → ℕ → σ → ℝ≥0∞
  | 0, _, _, _, _, _ => 0
  | n + 1, c, x, d, g, s => (if c.material = none then 0 else 1) +
    oneRound S G nodes w method (fun _ _ _ => 0) (flightsMade S G nodes w method n) c x d g s

/-- How many neutrons are still flying after some rounds. -/
noncomputable def stillFlying {σ : Type} (S : Supply σ) (G : ℕ) (nodes : Nuclide → List MgNode)
    (w : World) (method : Method) : ℕ → Cell → Point → Direction → ℕ → σ → ℝ≥0∞
  | 0, c, _, _, _, _ => if c.material = none then 0 else 1
  | n + 1, c, x, d, g, s =>
    oneRound S G nodes w method (fun _ _ _ => 0) (stillFlying S G nodes w method n) c x d g s

/-- The mean number of flights, if the numbers are independent. -/
noncomputable def meanFlights (G : ℕ) (nodes : Nuclide → List MgNode) (w : World) (method : Method)
    (c : Cell) (x : Point) (d : Direction) (g : ℕ) : ℝ≥0∞ :=
  ∫⁻ us, ⨆ n, flightsMade endless G nodes w method n c x d g us ∂uniforms

/-! ### The medium -/

/-- A collision leaves at most `k` neutrons on average, wherever it happens. -/
def AtMost (k : ℝ) (G : ℕ) (nodes : Nuclide → List MgNode) (w : World) : Prop :=
  ∀ c ∈ w.cells, ∀ m, c.material = some m → ∀ g, 1 ≤ g → g ≤ G →
    ∑ g' ∈ Finset.Icc 1 G, (transferRate G nodes m g g' + fissionRate G nodes m g g') ≤
      k * macroscopic G nodes g m

/-! ### The surfaces -/

/-- How often a straight line crosses a surface at most. -/
def mostCrossings : Surface → ℕ
  | .sphere _ _ => 2
  | .planeX _ => 1
  | .cylinderX _ => 2

/-- The different surfaces of the cells. -/
noncomputable def shapesOf (w : World) : Finset Surface :=
  (w.cells.flatMap fun c => c.surfaceSenses.map fun e => e.1.shape).toFinset

/-- How many crossings a straight line has at most with all surfaces of the cells. -/
noncomputable def crossable (w : World) : ℕ := ∑ s ∈ shapesOf w, mostCrossings s

end Minimc.Spec
