import Verif.Model.Surface
import Verif.Spec.Geometry

/-!
# Specification of surfaces

A surface is the zero set of a function of the coordinates that is negative on the
"negative" side (inside a sphere or cylinder, below a plane).
-/

namespace Minimc.Spec

/-- Implicit equation of a surface, in coordinates. -/
noncomputable def surfaceValue : Surface → Point → ℝ
  | .sphere c r, p => (p.x - c.x) ^ 2 + (p.y - c.y) ^ 2 + (p.z - c.z) ^ 2 - r ^ 2
  | .planeX c, p => p.x - c
  | .cylinderX r, p => p.y ^ 2 + p.z ^ 2 - r ^ 2

/-- The point lies on the surface. -/
def OnSurface (s : Surface) (p : Point) : Prop := surfaceValue s p = 0

/-- The point is strictly on the negative side of the surface (CSGSurface.hpp:28-31
documents this as what `Contains` means). -/
def Inside (s : Surface) (p : Point) : Prop := surfaceValue s p < 0

end Minimc.Spec
