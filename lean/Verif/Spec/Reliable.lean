import Verif.Spec.GasSubcritical
import Verif.Spec.Experiment

/-!
# Specification: what results of problems estimate in which neutrons die out

Bounded solutions of the integral transport equation, for energy groups and for gases.
-/

namespace Minimc.Spec

open Classical MeasureTheory
open scoped ENNReal

/-- A bounded solution of the transport equation with energy groups and fission, see `transported` and
`bred`, for neutrons in cells that fly in a direction and have a group. -/
def GroupSolution (G : ℕ) (nodes : Nuclide → List MgNode) (w : World)
    (hit : SurfaceObj → Direction → ℕ → ℝ≥0∞) (E : Cell → Point → Direction → ℕ → ℝ≥0∞) : Prop :=
  ∃ B : ℝ≥0∞, B ≠ ⊤ ∧ ∀ c ∈ w.cells, ∀ x d g, UnitVec d → 1 ≤ g → g ≤ G → E c x d g ≤ B ∧
    E c x d g = transported G nodes w hit E c x d g + bred G nodes w E c x d g

/-- A bounded solution of the transport equation with continuous energies, thermal motion and fission, see
`gasTransported`. -/
def GasSolution (data : Nuclide → Continuous) (w : World) (hit : SurfaceObj → Direction → ℝ → ℝ≥0∞)
    (E : Cell → Point → Direction → ℝ → ℝ≥0∞) : Prop :=
  ∃ B : ℝ≥0∞, B ≠ ⊤ ∧ ∀ c ∈ w.cells, ∀ x d e, UnitVec d → 0 < e → E c x d e ≤ B ∧
    E c x d e = gasTransported data w hit E c x d e

/-- The average of a score over more and more histories tends to `truth`, the printed standard deviation
times the root of the number of histories tends to the standard deviation `spread` of the score, and if
there is any spread, the true value is within `k` printed standard deviations of the average with the
probability that the normal distribution gives, if the histories have independent numbers. -/
def Reliable (score : (ℕ → ℝ) → ℝ≥0∞) (truth spread : ℝ) : Prop :=
  (∀ᵐ histories ∂(Measure.infinitePi fun _ : ℕ => uniforms),
    Filter.Tendsto (fun n : ℕ => mean (sample (fun j => (score (histories j)).toReal) n)) Filter.atTop
      (nhds truth)) ∧
  (∀ᵐ histories ∂(Measure.infinitePi fun _ : ℕ => uniforms),
    Filter.Tendsto (fun n : ℕ => Real.sqrt n *
      standardError (sample (fun j => (score (histories j)).toReal) n)) Filter.atTop (nhds spread)) ∧
  spread ^ 2 = ∫ us, ((score us).toReal - truth) ^ 2 ∂uniforms ∧
  (0 < spread → ∀ k : ℝ, 0 ≤ k →
    Filter.Tendsto (fun n : ℕ => (Measure.infinitePi fun _ : ℕ => uniforms) {histories |
      |mean (sample (fun j => (score (histories j)).toReal) n) - truth| ≤
        k * standardError (sample (fun j => (score (histories j)).toReal) n)}) Filter.atTop
      (nhds (ENNReal.ofReal (∫ x in -k..k, Real.exp (-(x ^ 2 / 2)) / Real.sqrt (2 * Real.pi)))))

end Minimc.Spec
