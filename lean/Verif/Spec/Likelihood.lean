import Mathlib.Analysis.SpecialFunctions.Exp
import Mathlib.Analysis.SpecialFunctions.Log.Deriv

/-! # Probabilities of flights as functions of the cross section -/

namespace Minimc.Spec

/-- Probability of flying at least `d` through atoms of number density `N` and cross section
`sigma`. -/
noncomputable def flightSurvival (N sigma d : ℝ) : ℝ := Real.exp (-(N * sigma * d))

/-- Probability density of the first collision at `d`: minus the derivative of the survival
probability. -/
noncomputable def collisionPdf (N sigma d : ℝ) : ℝ := -deriv (flightSurvival N sigma) d

/-- Probability density of a real collision at `d`, after a flight with the majorant `majorant`. -/
noncomputable def realPdf (N sigma majorant d : ℝ) : ℝ :=
  collisionPdf N majorant d * (sigma / majorant)

/-- Probability density of a virtual collision at `d`. -/
noncomputable def virtualPdf (N sigma majorant d : ℝ) : ℝ :=
  collisionPdf N majorant d * (1 - sigma / majorant)

end Minimc.Spec
