import Verif.Model.Types

/-! # Particle (Particle.cpp), without streaming and nuclide sampling -/

namespace Minimc

open Classical in
/-- `for (x : xs) { accumulated += f(x); if (accumulated > threshold) return x; }`, the loop
shared by Particle.cpp:115-120, Multigroup.cpp:53-69, 255-262, 279-285 and
Continuous.cpp:61-67.  `none` when the loop ends without a selection. -/
noncomputable def selectLoop {α : Type _} (f : α → Res ℝ) (threshold : ℝ) :
    ℝ → List α → Res (Option α)
  | _, [] => .ok none
  | accumulated, x :: xs => do
    let v ← f x
    if accumulated + v > threshold then .ok (some x)
    else selectLoop f threshold (accumulated + v) xs

/-- `std::accumulate(first, last, 0., [](acc, x) { return acc + f(x); })`, e.g.
Material.cpp:44-49. -/
noncomputable def sumLoop {α : Type _} (f : α → Res ℝ) : ℝ → List α → Res ℝ
  | accumulated, [] => .ok accumulated
  | accumulated, x :: xs => do
    let v ← f x
    sumLoop f (accumulated + v) xs

open Classical in
/-- Conversion of a double to `size_t` (Multigroup.cpp:271-273, ContinuousReaction.cpp:255-257):
truncation; undefined at or below -1. -/
noncomputable def toSize (x : ℝ) : Res ℕ :=
  if x ≤ -1 then .error .ub else .ok ⌊x⌋₊

namespace Particle

/-- `Particle` constructor (Particle.cpp:36-40); default members Particle.hpp:106-131. -/
def ofBorn (b : Born) : Particle where
  indirectEffects := []
  secondaries := []
  position := b.position
  direction := b.direction
  energy := b.energy
  cell := b.cell
  rng := Rng.ofSeed b.seed
  type := b.type
  event := .birth
  currentSurface := none

/-- `Particle::GetCell` (Particle.cpp:87-92). -/
def getCell (p : Particle) : Res Cell :=
  match p.cell with
  | some c => .ok c
  | none => .error .runtimeError

/-- `p.GetCell().temperature->at(p.GetPosition())` (e.g. Continuous.cpp:43-44). -/
noncomputable def temperatureAt (p : Particle) : Res ℝ := do
  let c ← p.getCell
  .ok (c.temperature.at' p.position)

/-- `p.GetCell().temperature->upper_bound` (e.g. Continuous.cpp:29). -/
noncomputable def temperatureUpper (p : Particle) : Res ℝ := do
  let c ← p.getCell
  .ok c.temperature.upperBound

/-- `Particle::Sample` (Particle.cpp:106-108) and every
`std::uniform_real_distribution{}(p.rng)`. -/
noncomputable def sample (p : Particle) : ℝ × Particle :=
  ((Rng.canonical p.rng).1, { p with rng := (Rng.canonical p.rng).2 })

/-- `Particle::SetDirectionIsotropic` (Particle.cpp:79). -/
noncomputable def setDirectionIsotropic (p : Particle) : Particle :=
  { p with direction := (Direction.isotropic p.rng).1, rng := (Direction.isotropic p.rng).2 }

/-- `Particle::Scatter` (Particle.cpp:55-64).  The loop over perturbations adds
`TotalCrossSectionPerturbation::Scatter`, which is zero (Perturbation.cpp:80-83), and is left
out. -/
noncomputable def scatter (p : Particle) (mu : ℝ) (e : Energy) : Res Particle := do
  let (u, p₁) := p.sample
  let d ← Direction.rotated p₁.direction mu (2 * Real.pi * u)
  .ok { p₁ with direction := d, energy := e }

/-- `Particle::BankSecondaries` (Particle.cpp:96-100). -/
def bankSecondary (p : Particle) (direction : Direction) (energy : Energy) : Particle :=
  let seed := Rng.next p.rng
  { p with
    rng := seed
    secondaries := p.secondaries ++ [⟨p.position, direction, energy, .neutron, seed, p.cell⟩] }

/-- `Particle::IsAlive` (Particle.cpp:126-129). -/
def isAlive (p : Particle) : Bool :=
  p.event != .capture && p.event != .leak && p.event != .fission

end Particle
end Minimc
