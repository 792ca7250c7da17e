import Verif.Model.Point

/-!
# Geometric specification

Written out in coordinates, without the helper functions of the model.
-/

namespace Minimc.Spec

/-- Unit length. -/
def UnitVec (d : Point) : Prop := d.x ^ 2 + d.y ^ 2 + d.z ^ 2 = 1

/-- The cosine of the angle between two unit vectors. -/
def cosAngle (a b : Point) : ℝ := a.x * b.x + a.y * b.y + a.z * b.z

/-- Position after flying a distance `t` from `o` along `d`. -/
def along (o d : Point) (t : ℝ) : Point := ⟨o.x + t * d.x, o.y + t * d.y, o.z + t * d.z⟩

end Minimc.Spec
