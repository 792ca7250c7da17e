import Verif.Model.Particle

/-! # Source (Source.cpp) -/

namespace Minimc

/-- The distributions of directions (Source.cpp:41-54); the other quantities only have constant
distributions (Source.cpp:33-40, 55-83, 104-107). -/
inductive DirectionDist where
  | constant (d : Direction)
  | isotropic
  | isotropicFlux (reference : Direction)

/-- `IsotropicFlux::Sample` (Source.cpp:124-129) as a function of the two uniform numbers. -/
noncomputable def isotropicFluxOf (reference : Direction) (u v : ℝ) : Res Direction :=
  Direction.rotated reference (Real.sqrt u) (v * (2 * Real.pi - 0) + 0)

/-- `Distribution<Direction>::Sample` (Source.cpp:104-107, 113-115, 124-129). -/
noncomputable def DirectionDist.sample (d : DirectionDist) (g : Rng) : Res (Direction × Rng) :=
  match d with
  | .constant c => .ok (c, g)
  | .isotropic => .ok (Direction.isotropic g)
  | .isotropicFlux reference => do
    let (u, g) := Rng.canonical g
    let (v, g) := Rng.canonical g
    .ok (← isotropicFluxOf reference u v, g)

/-- `Source` (Source.hpp:65-80) with its constant distributions. -/
structure Source where
  position : Point
  direction : DirectionDist
  energy : Energy
  type : ParticleType

/-- `Source::Sample` (Source.cpp:143-154). -/
noncomputable def Source.sample (s : Source) (seed : ℕ) : Res Born := do
  let (d, g) ← s.direction.sample (Rng.ofSeed seed)
  .ok ⟨s.position, d, s.energy, s.type, Rng.next g, none⟩

end Minimc
