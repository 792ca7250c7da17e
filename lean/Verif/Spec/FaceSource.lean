import Verif.Spec.Surface

/-! # Specification of leaving a surface -/

namespace Minimc.Spec

/-- How fast the implicit equation of the surface grows along the direction: positive away from the
inside, negative into it. -/
noncomputable def slope : Surface → Point → Direction → ℝ
  | .sphere c _, p, d => 2 * ((p.x - c.x) * d.x + (p.y - c.y) * d.y + (p.z - c.z) * d.z)
  | .planeX _, _, d => d.x
  | .cylinderX _, p, d => 2 * (p.y * d.y + p.z * d.z)

end Minimc.Spec
