import Verif.Spec.Maxwell
import Verif.Spec.Sequence

/-! # Choosing the atom that a neutron collides with

The method of rejection as a function of an endless sequence of numbers: proposals of a speed `x`, in
units of the most probable speed, and a cosine `μ` are made until one is accepted.  `y` is the speed of
the neutron in the same units.  A proposal takes four or five numbers, its acceptance one more. -/

namespace Minimc.Spec

/-- The proposed speed and cosine and how many numbers they took. -/
noncomputable def proposal (y : ℝ) (us : ℕ → ℝ) : ℝ × ℝ × ℕ :=
  if us 2 < 2 / (Real.sqrt Real.pi * y + 2) then
    (Real.sqrt (-Real.log (us 0 * us 1)), 2 * us 3 - 1, 4)
  else
    (Real.sqrt (-Real.log (us 0) - Real.log (us 1) * Real.cos (Real.pi * us 3 / 2) *
      Real.cos (Real.pi * us 3 / 2)), 2 * us 4 - 1, 5)

/-- The first accepted among the first `n` proposals. -/
noncomputable def chosen (y : ℝ) : ℕ → (ℕ → ℝ) → Option (ℝ × ℝ)
  | 0, _ => none
  | n + 1, us =>
    let (x, μ, k) := proposal y us
    if us k < relativeSpeed y x μ / (x + y) then some (x, μ)
    else chosen y n fun i => us (i + (k + 1))

/-- Density of the speed `s` and cosine `μ` of the atoms that a neutron of speed `v` collides with: the
atoms are met at a rate proportional to the relative speed. -/
noncomputable def metDensity (β v s μ : ℝ) : ℝ :=
  maxwell β s / 2 * relativeSpeed v s μ / meanRelativeSpeed β v

end Minimc.Spec
