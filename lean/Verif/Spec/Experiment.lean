import Verif.Spec.Chain
import Verif.Spec.Score
import Verif.Model.Driver

/-!
# Specification: a run as an experiment

A history, including the source, as a function of a supply of numbers, and the sample of scores that the
histories of a run make.
-/

namespace Minimc.Spec

open Classical MeasureTheory
open scoped ENNReal

/-- Two directions that, with a third one, make a right handed frame. -/
structure Frame (a b d : Direction) : Prop where
  first : UnitVec a
  second : UnitVec b
  across : cosAngle d a = 0
  across' : cosAngle d b = 0
  apart : cosAngle a b = 0
  hand : b = ⟨d.y * a.z - d.z * a.y, d.z * a.x - d.x * a.z, d.x * a.y - d.y * a.x⟩

/-- A neutron leaves the source: two numbers for the direction, unless it is given, then the neutron gets
its own numbers.  In an isotropic flux through a surface the square of the cosine is uniform, and so is
the turn, counted from `a` towards `b`. -/
noncomputable def emitted {σ : Type} (S : Supply σ) (a b : Direction) (dist : DirectionDist)
    (start : Direction → σ → ℝ≥0∞) (s : σ) : ℝ≥0∞ :=
  match dist with
  | .constant d => start d (S.child s)
  | .isotropic => start (directionFrom (S.numbers s 0) (S.numbers s 1)) (S.child (S.rest^[2] s))
  | .isotropicFlux r =>
    start (tilted a b r (Real.sqrt (S.numbers s 0)) (S.numbers s 1)) (S.child (S.rest^[2] s))

/-- The mean over the directions of a source: given, all alike, or in proportion to the cosine with the
reference direction. -/
noncomputable def emittedMean (a b : Direction) (dist : DirectionDist) (F : Direction → ℝ≥0∞) : ℝ≥0∞ :=
  match dist with
  | .constant d => F d
  | .isotropic => sphereMean F
  | .isotropicFlux r => ∫⁻ cosine in Set.Ioo (0 : ℝ) 1, ENNReal.ofReal (2 * cosine) *
      ∫⁻ turn in Set.Ioo (0 : ℝ) 1, F (tilted a b r cosine turn)

/-- What a history of the problem scores, if neutrons start in cell `c` and group `g`. -/
noncomputable def played {σ : Type} (S : Supply σ) (G : ℕ) (nodes : Nuclide → List MgNode) (P : Problem)
    (hit : SurfaceObj → Direction → ℕ → ℝ≥0∞) (a b : Direction) (c : Cell) (g : ℕ) (s : σ) : ℝ≥0∞ :=
  emitted S a b P.source.direction
    (fun d s => ⨆ n, chainScore S G nodes P.world P.method hit n c P.source.position d g s) s

/-- The first `n` scores. -/
def sample (score : ℕ → ℝ) (n : ℕ) : List ℝ := (List.range n).map score

end Minimc.Spec
