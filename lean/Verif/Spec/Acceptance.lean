import Verif.Model.Material
import Verif.Model.Geometry
import Verif.Spec.Geometry

/-! # Real collisions in delta tracking -/

namespace Minimc.Spec

/-- At `x`, in the cell it is in, the particle's total cross section is `r` times its majorant. -/
def RatioAt (p : Particle) (x : Point) (r : ℝ) : Prop :=
  ∃ c m total majorant, p.cell = some c ∧ c.material = some m ∧
    m.getMicroscopicTotal { p with position := x } = .ok total ∧
    m.getMicroscopicMajorant { p with position := x } = .ok majorant ∧
    majorant ≠ 0 ∧ r = total / majorant

/-- The rate per unit length of tentative collisions at the particle's position is `M`. -/
def TentativeRate (p : Particle) (M : ℝ) : Prop :=
  ∃ c m majorant, p.cell = some c ∧ c.material = some m ∧
    m.getMicroscopicMajorant p = .ok majorant ∧ M = m.numberDensity * majorant

/-- A flight whose tentative collision at distance `t` comes no later than the nearest surface. -/
def Unobstructed (p : Particle) (t : ℝ) : Prop :=
  ∃ c s ds, p.cell = some c ∧ c.nearestSurface p.position p.direction = .ok (s, ds) ∧
    ((t : ℝ) : WithTop ℝ) ≤ ds

end Minimc.Spec
