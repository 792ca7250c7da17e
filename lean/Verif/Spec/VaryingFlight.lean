import Verif.Spec.Flight
import Mathlib.MeasureTheory.Integral.IntervalIntegral.Basic

/-! # Flights past tentative collisions that are real with a probability that varies on the way -/

namespace Minimc.Spec

open Finset

/-- How far the first `j` tentative flights lead. -/
noncomputable def passed (M : ℝ) (us : ℕ → ℝ) (j : ℕ) : ℝ := ∑ i ∈ range j, roundLength M us i

/-- No tentative collision at a distance of at most `t` is real.  A tentative flight from distance
`x` to distance `y` ends in a real collision with probability `r x y`, decided by number `2 k + 1`
of the sequence. -/
def Undisturbed (r : ℝ → ℝ → ℝ) (M : ℝ) (us : ℕ → ℝ) (t : ℝ) : Prop :=
  ∀ k, passed M us (k + 1) ≤ t → r (passed M us k) (passed M us (k + 1)) ≤ us (2 * k + 1)

/-- Tentative collision `k` is the first real one. -/
def FirstReal (r : ℝ → ℝ → ℝ) (M : ℝ) (us : ℕ → ℝ) (k : ℕ) : Prop :=
  (∀ j < k, r (passed M us j) (passed M us (j + 1)) ≤ us (2 * j + 1)) ∧
    us (2 * k + 1) < r (passed M us k) (passed M us (k + 1))

/-- The chance to fly further than `t` without collision where `S x` collisions per unit length are
expected at distance `x`. -/
noncomputable def unharmed (S : ℝ → ℝ) (t : ℝ) : ℝ := Real.exp (-∫ x in (0 : ℝ)..t, S x)

end Minimc.Spec
