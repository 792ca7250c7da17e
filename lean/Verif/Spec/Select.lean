import Mathlib.Data.Real.Basic
import Mathlib.MeasureTheory.Measure.Lebesgue.Basic

/-! # Choosing one of several items with given weights -/

namespace Minimc.Spec

/-- Laying the weights end to end from zero, `θ` falls into the piece of item `i`. -/
def Selected (ws : List ℝ) (θ : ℝ) (i : ℕ) : Prop :=
  i < ws.length ∧ (ws.take i).sum ≤ θ ∧ θ < (ws.take (i + 1)).sum

/-- Laying the weights end to end from zero, `θ` is in the piece of item `i` or closer to it than
`δ`. -/
def NearlySelected (ws : List ℝ) (θ δ : ℝ) (i : ℕ) : Prop :=
  i < ws.length ∧ (ws.take i).sum ≤ θ + δ ∧ θ < (ws.take (i + 1)).sum + δ

/-- Probability of a set of values of one uniform random number on [0, 1). -/
noncomputable def prob (s : Set ℝ) : ENNReal :=
  MeasureTheory.volume (s ∩ Set.Ico 0 1)

end Minimc.Spec
