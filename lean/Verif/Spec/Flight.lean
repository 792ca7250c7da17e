import Verif.Spec.Sequence
import Mathlib.Analysis.SpecialFunctions.Log.Basic

/-! # Flights made of several tentative ones -/

namespace Minimc.Spec

open Finset

/-- Length of round `j`: exponential with rate `M`, obtained from number `2 j` of the sequence. -/
noncomputable def roundLength (M : ℝ) (us : ℕ → ℝ) (j : ℕ) : ℝ := -Real.log (1 - us (2 * j)) / M

/-- Round `k` is the first one accepted; a round is accepted with probability `a`, decided by
number `2 j + 1` of the sequence. -/
def FirstAccepted (a : ℝ) (us : ℕ → ℝ) (k : ℕ) : Prop :=
  (∀ j < k, a ≤ us (2 * j + 1)) ∧ us (2 * k + 1) < a

/-- The rounds up to and including the first one accepted are together longer than `t`. -/
def LongerThan (M a : ℝ) (us : ℕ → ℝ) (t : ℝ) : Prop :=
  ∃ k, FirstAccepted a us k ∧ t < ∑ j ∈ range (k + 1), roundLength M us j

end Minimc.Spec
