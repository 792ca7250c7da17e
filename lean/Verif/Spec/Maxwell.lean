import Mathlib.Analysis.SpecialFunctions.Trigonometric.Basic
import Mathlib.MeasureTheory.Integral.IntervalIntegral.Basic

/-! # Collisions with the atoms of a gas in thermal equilibrium

The atoms move in directions that are uniform on the sphere, with speeds that follow Maxwell's
distribution. -/

namespace Minimc.Spec

open MeasureTheory

/-- Boltzmann's constant in MeV per kelvin. -/
noncomputable def boltzmannMeV : ℝ := 8.617333262145e-11

/-- Speed of a neutron of mass `m` and kinetic energy `e`. -/
noncomputable def speedOf (m e : ℝ) : ℝ := Real.sqrt (2 * e / m)

/-- Reciprocal of the most probable speed of atoms of mass `M` at temperature `t`. -/
noncomputable def slowness (M t : ℝ) : ℝ := Real.sqrt (M / (2 * boltzmannMeV * t))

/-- Maxwell's density of the speed `s`; `1 / β` is the most probable speed. -/
noncomputable def maxwell (β s : ℝ) : ℝ :=
  4 / Real.sqrt Real.pi * β ^ 3 * s ^ 2 * Real.exp (-(β * s) ^ 2)

/-- Speed of a neutron of speed `v` relative to an atom of speed `s`, where `μ` is the cosine of the
angle between their velocities. -/
noncomputable def relativeSpeed (v s μ : ℝ) : ℝ := Real.sqrt (v ^ 2 + s ^ 2 - 2 * v * s * μ)

/-- Mean speed of a neutron of speed `v` relative to the atoms.  With a cross section that does not
depend on the relative speed, it is proportional to the rate of collisions. -/
noncomputable def meanRelativeSpeed (β v : ℝ) : ℝ :=
  ∫ s in Set.Ioi (0 : ℝ), maxwell β s * ((∫ μ in (-1 : ℝ)..1, relativeSpeed v s μ) / 2)

end Minimc.Spec
