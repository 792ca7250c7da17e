import Verif.Spec.Geometry
import Mathlib.Analysis.SpecialFunctions.Pow.Real

/-! # Specification: rotations about an axis -/

namespace Minimc.Spec

/-- The vector turned by the angle about the axis, which has length one (formula of Rodrigues). -/
noncomputable def turned (d : Point) (angle : ℝ) (x : Point) : Point :=
  ⟨x.x * Real.cos angle + (d.y * x.z - d.z * x.y) * Real.sin angle +
      d.x * (cosAngle d x * (1 - Real.cos angle)),
    x.y * Real.cos angle + (d.z * x.x - d.x * x.z) * Real.sin angle +
      d.y * (cosAngle d x * (1 - Real.cos angle)),
    x.z * Real.cos angle + (d.x * x.y - d.y * x.x) * Real.sin angle +
      d.z * (cosAngle d x * (1 - Real.cos angle))⟩

/-- The direction with a given fraction of the sphere behind it and a given fraction of the turn about
the first axis. -/
noncomputable def directionFrom (u v : ℝ) : Direction :=
  ⟨2 * u - 1, Real.sqrt (1 - (2 * u - 1) ^ 2) * Real.cos (2 * Real.pi * v),
    Real.sqrt (1 - (2 * u - 1) ^ 2) * Real.sin (2 * Real.pi * v)⟩

/-- The direction at a given angle from the direction `d`, after a given fraction of a turn about it
from `a` towards `b`. -/
noncomputable def tilted (a b d : Direction) (cosine u : ℝ) : Direction :=
  ⟨Real.sqrt (1 - cosine ^ 2) * (Real.cos (2 * Real.pi * u) * a.x + Real.sin (2 * Real.pi * u) * b.x) +
      cosine * d.x,
    Real.sqrt (1 - cosine ^ 2) * (Real.cos (2 * Real.pi * u) * a.y + Real.sin (2 * Real.pi * u) * b.y) +
      cosine * d.y,
    Real.sqrt (1 - cosine ^ 2) * (Real.cos (2 * Real.pi * u) * a.z + Real.sin (2 * Real.pi * u) * b.z) +
      cosine * d.z⟩

end Minimc.Spec
