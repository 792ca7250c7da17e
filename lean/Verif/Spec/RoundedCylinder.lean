import Verif.Spec.Geometry

/-! # Cylinders in double precision -/

namespace Minimc
namespace Spec

/-- The square of the distance of a point from the x axis. -/
def offAxis (p : Point) : ℝ := p.y ^ 2 + p.z ^ 2

/-- The square of the distance of a point from the origin. -/
def offOrigin (p : Point) : ℝ := p.x ^ 2 + p.y ^ 2 + p.z ^ 2

end Spec
end Minimc
