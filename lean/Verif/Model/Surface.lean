import Verif.Model.Point

/-!
# Surfaces (CSGSurface.hpp, CSGSurface.cpp)
-/

namespace Minimc

open Classical

/-- The derived classes `Sphere`, `PlaneX`, `CylinderX` (CSGSurface.hpp:62-118) with
their data members.  The `name` member (CSGSurface.hpp:39) lives in the world model. -/
inductive Surface where
  | sphere (center : Point) (radius : ℝ)
  | planeX (c : ℝ)
  | cylinderX (radius : ℝ)

namespace Surface

/-- `CSGSurface::SolveQuadratic` (CSGSurface.cpp:71-97). -/
noncomputable def solveQuadratic (a b c : ℝ) : WithTop ℝ :=
  let discriminant := b * b - 4 * a * c
  if discriminant ≤ 0 then ⊤
  else
    let lesser :=
      if b > 0 then (-b - Real.sqrt discriminant) / (2 * a)
      else (2 * c) / (-b + Real.sqrt discriminant)
    let greater :=
      if b > 0 then (2 * c) / (-b - Real.sqrt discriminant)
      else (-b + Real.sqrt discriminant) / (2 * a)
    if lesser > 0 then (lesser : WithTop ℝ)
    else if greater > 0 then (greater : WithTop ℝ)
    else ⊤

/-- `Sphere::Distance` (CSGSurface.cpp:107-111). -/
noncomputable def sphereDistance (center : Point) (radius : ℝ) (origin : Point)
    (direction : Direction) : WithTop ℝ :=
  let oc := origin - center
  solveQuadratic 1 (2 * oc.dot direction) (oc.dot oc - radius * radius)

/-- `PlaneX::Distance` (CSGSurface.cpp:125-134).  With `d_x = 0` the C++ quotient is an
infinity or not a number and the result is infinity; Lean's `v / 0 = 0` gives the same
result. -/
noncomputable def planeXDistance (c : ℝ) (origin : Point) (direction : Direction) :
    WithTop ℝ :=
  let vx := c - origin.dot ⟨1, 0, 0⟩
  let dx := direction.dot ⟨1, 0, 0⟩
  let d := vx / dx
  if d > 0 then (d : WithTop ℝ) else ⊤

/-- `CylinderX::Distance` (CSGSurface.cpp:148-162).  The axis `Direction{1, 0, 0}` is
written as the already normalised vector. -/
noncomputable def cylinderXDistance (radius : ℝ) (origin : Point) (direction : Direction) :
    WithTop ℝ :=
  let w : Point := ⟨1, 0, 0⟩
  let pp := origin.dot origin
  let pw := origin.dot w
  let dw := direction.dot w
  let pd := origin.dot direction
  solveQuadratic (1 - dw * dw) (2 * (pd - pw * dw)) (pp - pw * pw - radius * radius)

/-- Virtual `CSGSurface::Distance` (CSGSurface.hpp:36-37). -/
noncomputable def distance (s : Surface) (origin : Point) (direction : Direction) :
    WithTop ℝ :=
  match s with
  | .sphere center radius => sphereDistance center radius origin direction
  | .planeX c => planeXDistance c origin direction
  | .cylinderX radius => cylinderXDistance radius origin direction

/-- `Sphere::Contains` (CSGSurface.cpp:113-116). -/
noncomputable def sphereContains (center : Point) (radius : ℝ) (p : Point) : Bool :=
  let pc := p - center
  decide (pc.dot pc < radius * radius)

/-- `PlaneX::Contains` (CSGSurface.cpp:136-138). -/
noncomputable def planeXContains (c : ℝ) (p : Point) : Bool :=
  decide (p.dot ⟨1, 0, 0⟩ < c)

/-- `CylinderX::Contains` (CSGSurface.cpp:164-174).  The code compares the distance from
the axis (with the square root) to the squared radius. -/
noncomputable def cylinderXContains (radius : ℝ) (p : Point) : Bool :=
  let w : Point := ⟨1, 0, 0⟩
  let pp := p.dot p
  let pw := p.dot w
  decide (Real.sqrt (pp - pw * pw) < radius * radius)

/-- Virtual `CSGSurface::Contains` (CSGSurface.hpp:31). -/
noncomputable def contains (s : Surface) (p : Point) : Bool :=
  match s with
  | .sphere center radius => sphereContains center radius p
  | .planeX c => planeXContains c p
  | .cylinderX radius => cylinderXContains radius p

end Surface
end Minimc
