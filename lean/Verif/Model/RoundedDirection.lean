import Verif.Model.Rounded

/-!
# Directions with rounded arithmetic

The constructors of `Direction` written again with every operation on doubles followed by rounding.
`cosine` and `sine` stand for the functions of the mathematical library, which need not give the
nearest double.
-/

namespace Minimc
namespace Rounded

open Classical

variable (rnd : ℝ → ℝ)

/-- `Point::Cross` (Point.cpp:53-56). -/
noncomputable def cross (p q : Point) : Point :=
  ⟨rnd (rnd (p.y * q.z) - rnd (p.z * q.y)), rnd (rnd (p.z * q.x) - rnd (p.x * q.z)),
    rnd (rnd (p.x * q.y) - rnd (p.y * q.x))⟩

/-- `Point::Normalize` (Point.cpp:44-47, 65-70), called by the constructors of `Direction`
(Point.cpp:80-88, 123-129). -/
noncomputable def normalize (p : Point) : Res Point :=
  if dot rnd p p = 0 then .error .nan
  else
    let r := rnd (Real.sqrt (dot rnd p p))
    .ok ⟨rnd (p.x / r), rnd (p.y / r), rnd (p.z / r)⟩

variable (cosine sine : ℝ → ℝ)

/-- `std::sqrt(1 - mu * mu)` (Point.cpp:92, 116, 117). -/
noncomputable def sineOf (mu : ℝ) : Res ℝ :=
  if rnd (1 - rnd (mu * mu)) < 0 then .error .nan
  else .ok (rnd (Real.sqrt (rnd (1 - rnd (mu * mu)))))

/-- `Direction(RNG&)` (Point.cpp:90-96) as a function of the sampled cosine `x` and azimuth. -/
noncomputable def isotropicOf (x phi : ℝ) : Res Direction := do
  let s ← sineOf rnd x
  .ok ⟨x, rnd (s * cosine phi), rnd (s * sine phi)⟩

/-- `std::uniform_real_distribution` of libstdc++ (Point.cpp:91, 93), see `Rng.uniformReal`. -/
noncomputable def uniformReal (a b : ℝ) (g : ℕ) : ℝ × ℕ :=
  (rnd (rnd ((canonical rnd g).1 * rnd (b - a)) + a), (canonical rnd g).2)

/-- `Direction(RNG&)` (Point.cpp:90-96) with `constants::pi` (Constants.hpp:13). -/
noncomputable def isotropic (g : ℕ) : Res (Direction × ℕ) := do
  let (x, g₁) := uniformReal rnd (-1) 1 g
  let (phi, g₂) := uniformReal rnd 0 (rnd (2 * rnd Real.pi)) g₁
  let d ← isotropicOf rnd cosine sine x phi
  .ok (d, g₂)

/-- The auxiliary axis of `Direction(d, mu, phi)` (Point.cpp:104-108); the tolerance is the double
nearest to 0.9 (Constants.hpp:20). -/
noncomputable def auxAxis (d : Direction) : Point :=
  if d.x ≤ rnd Direction.onAxisTolerance ∧ d.x > -rnd Direction.onAxisTolerance then ⟨1, 0, 0⟩
  else ⟨0, 1, 0⟩

/-- `Direction(const Direction& d, mu, phi)` (Point.cpp:98-121). -/
noncomputable def rotated (d : Direction) (mu phi : ℝ) : Res Direction := do
  let u ← normalize rnd (cross rnd d (auxAxis rnd d))
  let v ← normalize rnd (cross rnd d u)
  let s ← sineOf rnd mu
  let uComp := smul rnd u (rnd (s * cosine phi))
  let vComp := smul rnd v (rnd (s * sine phi))
  let dComp := smul rnd d mu
  normalize rnd (add rnd (add rnd uComp vComp) dComp)

/-- The cosine of the scattering angle of a neutron that leaves with velocity `v`
(ContinuousReaction.cpp:187). -/
noncomputable def scatteringCosine (d : Direction) (v : Point) : Res ℝ := do
  let d' ← normalize rnd v
  .ok (dot rnd d d')

end Rounded
end Minimc
