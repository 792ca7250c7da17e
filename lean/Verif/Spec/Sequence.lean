import Verif.Spec.Select
import Mathlib.Probability.ProductMeasure

/-! # Sequences of independent uniform numbers -/

namespace Minimc.Spec

open MeasureTheory

/-- The uniform distribution on [0, 1). -/
noncomputable def uniform : Measure ℝ := volume.restrict (Set.Ico 0 1)

instance : IsProbabilityMeasure uniform := ⟨by simp [uniform]⟩

/-- The distribution of an endless sequence of independent uniform numbers. -/
noncomputable def uniforms : Measure (ℕ → ℝ) := Measure.infinitePi fun _ => uniform

instance : IsProbabilityMeasure uniforms := by unfold uniforms; infer_instance

/-- Numbers are taken from the sequence until one times `total` falls into one of the pieces; it
falls into piece `i`, in round `k` (counted from zero). -/
def SelectedInRound (ws : List ℝ) (total : ℝ) (us : ℕ → ℝ) (k i : ℕ) : Prop :=
  (∀ j < k, ws.sum ≤ us j * total) ∧ Selected ws (us k * total) i

end Minimc.Spec
