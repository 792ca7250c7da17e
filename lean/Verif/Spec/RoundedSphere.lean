import Verif.Model.Rounded
import Verif.Spec.Geometry

/-! # Spheres in double precision -/

namespace Minimc
namespace Spec

/-- How far a point is from another. -/
noncomputable def apart (p q : Point) : ℝ :=
  Real.sqrt ((p.x - q.x) ^ 2 + (p.y - q.y) ^ 2 + (p.z - q.z) ^ 2)

/-- The scale of the rounding errors at a sphere: the radius, or how far away the centre is if that
is more. -/
noncomputable def scale (center : Point) (radius : ℝ) (p : Point) : ℝ := max radius (apart p center)

end Spec
end Minimc
