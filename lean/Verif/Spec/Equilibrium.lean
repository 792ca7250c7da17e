import Verif.Spec.Target
import Verif.Spec.Experiment

/-!
# Specification: a collision with an atom of a gas

A neutron of unit mass collides with an atom of mass `A` of a gas in thermal equilibrium.  In the frame of
their centre of mass it is scattered evenly into all directions.  The collision is a function of an endless
sequence of numbers.
-/

namespace Minimc.Spec

open Classical

/-- The combination `p v + q w` of two vectors. -/
noncomputable def combine (p : ℝ) (v : Point) (q : ℝ) (w : Point) : Point :=
  ⟨p * v.x + q * w.x, p * v.y + q * w.y, p * v.z + q * w.z⟩

/-- Square of the length of a vector. -/
noncomputable def normSq (v : Point) : ℝ := v.x ^ 2 + v.y ^ 2 + v.z ^ 2

/-- The direction of a vector; that of the vector zero is immaterial. -/
noncomputable def directed (v : Point) : Direction :=
  if normSq v = 0 then ⟨1, 0, 0⟩
  else combine (1 / Real.sqrt (normSq v)) v 0 v

/-- Velocity of the neutron after an elastic collision that turns its velocity in the frame of the centre of
mass to the direction `n`.  The velocities before are `v` and `V`. -/
noncomputable def struck (A : ℝ) (v V : Point) (n : Direction) : Point :=
  combine 1 (combine (1 / (1 + A)) v (A / (1 + A)) V)
    (A / (1 + A) * Real.sqrt (normSq (combine 1 v (-1) V))) n

/-- Direction and kinetic energy of a neutron of mass `m` that came with the given direction and speed and
met an atom of speed `s` at cosine `μ`.  The numbers give the turn of the atom about the direction of the
neutron, the direction in the frame of the centre of mass, and the turn of the neutron about its old
direction.  Turns about a direction `w` are counted from `a w` towards `b w`. -/
noncomputable def departure (a b : Direction → Direction) (A m : ℝ) (d : Direction) (speed s μ : ℝ)
    (us : ℕ → ℝ) : Direction × ℝ :=
  let v := combine speed d 0 d
  let V := combine s (tilted (a d) (b d) d μ (us 0)) 0 d
  let w := directed (combine 1 v (-1) V)
  let v' := struck A v V (tilted (a w) (b w) w (2 * us 1 - 1) (us 2))
  (tilted (a d) (b d) d (cosAngle d (directed v')) (us 3), m * normSq v' / 2)

/-- How a neutron leaves the collision if one of the first `n` proposals for the atom is accepted; `1 / β` is
the most probable speed of the atoms. -/
noncomputable def leaving (a b : Direction → Direction) (A m β : ℝ) (d : Direction) (speed : ℝ) :
    ℕ → (ℕ → ℝ) → Option (Direction × ℝ)
  | 0, _ => none
  | n + 1, us =>
    let (x, μ, k) := proposal (β * speed) us
    if us k < relativeSpeed (β * speed) x μ / (x + β * speed) then
      some (departure a b A m d speed (x / β) μ fun i => us (i + (k + 1)))
    else leaving a b A m β d speed n fun i => us (i + (k + 1))

/-- Density of the velocities of the atoms; `1 / β` is their most probable speed. -/
noncomputable def gasDensity (β : ℝ) (V : Point) : ℝ :=
  β ^ 3 / (Real.pi * Real.sqrt Real.pi) * Real.exp (-(β ^ 2 * normSq V))

end Minimc.Spec
