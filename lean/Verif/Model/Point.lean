import Verif.Model.Rng
import Mathlib.Analysis.SpecialFunctions.Trigonometric.Basic
import Mathlib.Analysis.SpecialFunctions.Sqrt

/-!
# Points and directions (Point.hpp, Point.cpp)
-/

namespace Minimc

/-- `class Point` (Point.hpp:10-50): a vector in three-dimensional space. -/
@[ext] structure Point where
  x : ℝ
  y : ℝ
  z : ℝ

namespace Point

/-- `operator+` (Point.cpp:12-14) and `operator+=` (Point.cpp:58-63). -/
noncomputable instance : Add Point := ⟨fun a b => ⟨a.x + b.x, a.y + b.y, a.z + b.z⟩⟩

/-- `operator-` (Point.cpp:16-18). -/
noncomputable instance : Sub Point := ⟨fun a b => ⟨a.x - b.x, a.y - b.y, a.z - b.z⟩⟩

/-- `operator*` (Point.cpp:20-26), both argument orders. -/
noncomputable def smul (p : Point) (s : ℝ) : Point := ⟨p.x * s, p.y * s, p.z * s⟩

/-- `operator/` and `operator/=` (Point.cpp:28-30, 65-70).  Division by zero is not
a number in C++; callers guard against it. -/
noncomputable def sdiv (p : Point) (s : ℝ) : Point := ⟨p.x / s, p.y / s, p.z / s⟩

/-- `Point::Dot` (Point.cpp:49-51). -/
noncomputable def dot (p q : Point) : ℝ := p.x * q.x + p.y * q.y + p.z * q.z

/-- `Point::Cross` (Point.cpp:53-56). -/
noncomputable def cross (p q : Point) : Point :=
  ⟨p.y * q.z - p.z * q.y, p.z * q.x - p.x * q.z, p.x * q.y - p.y * q.x⟩

/-- `Point::Normalize` (Point.cpp:44-47).  For the zero vector the code divides zero
by zero: outcome `nan`. -/
noncomputable def normalize (p : Point) : Res Point :=
  open Classical in
  if p.dot p = 0 then .error .nan else .ok (p.sdiv (Real.sqrt (p.dot p)))

end Point

/-- `class Direction` (Point.hpp:58-84) derives from `Point` and adds no members; the
constructors establish unit length. -/
abbrev Direction := Point

namespace Direction

/-- `constants::on_axis_tolerance` (Constants.hpp:20). -/
noncomputable def onAxisTolerance : ℝ := 0.9

/-- `Direction(x, y, z)` (Point.cpp:85-88). -/
noncomputable def ofXYZ (x y z : ℝ) : Res Direction := Point.normalize ⟨x, y, z⟩

/-- `Direction(const Point&)` (Point.cpp:123-125). -/
noncomputable def ofPoint (p : Point) : Res Direction := p.normalize

/-- `Direction(RNG&)` (Point.cpp:90-96) as a function of the sampled cosine `x` and
azimuth `phi`.  The argument of the square root is non-negative for `x` in [-1, 1],
which is proved of every sampled `x`. -/
noncomputable def isotropicOf (x phi : ℝ) : Direction :=
  ⟨x, Real.sqrt (1 - x * x) * Real.cos phi, Real.sqrt (1 - x * x) * Real.sin phi⟩

/-- `Direction(RNG&)` (Point.cpp:90-96): first the cosine, then the azimuth is drawn. -/
noncomputable def isotropic (g : Rng) : Direction × Rng :=
  let (x, g₁) := Rng.uniformReal (-1) 1 g
  let (phi, g₂) := Rng.uniformReal 0 (2 * Real.pi) g₁
  (isotropicOf x phi, g₂)

open Classical in
/-- The auxiliary axis of `Direction(d, mu, phi)` (Point.cpp:104-108). -/
noncomputable def auxAxis (d : Direction) : Point :=
  if d.x ≤ onAxisTolerance ∧ d.x > -onAxisTolerance then ⟨1, 0, 0⟩ else ⟨0, 1, 0⟩

open Classical in
/-- `Direction(const Direction& d, mu, phi)` (Point.cpp:98-121).  `u` and `v` are
normalised by their constructors (lines 111, 113); the sum of the three components
is a `Point` and is converted to `Direction`, hence normalised again, by the
assignment on line 120.  The square root of a negative number (`|mu| > 1`) is not a
number. -/
noncomputable def rotated (d : Direction) (mu phi : ℝ) : Res Direction := do
  let u ← Direction.ofPoint (d.cross (auxAxis d))
  let v ← Direction.ofPoint (d.cross u)
  if 1 - mu * mu < 0 then .error .nan
  else
    let uComp := u.smul (Real.sqrt (1 - mu * mu) * Real.cos phi)
    let vComp := v.smul (Real.sqrt (1 - mu * mu) * Real.sin phi)
    let dComp := d.smul mu
    Direction.ofPoint (uComp + vComp + dComp)

end Direction
end Minimc
