import Verif.Model.Geometry
import Verif.Model.Material

/-! # Streaming and the two transport methods (TransportMethod.cpp, Particle.cpp,
Perturbation.cpp) -/

namespace Minimc

open Classical

/-- `constants::nudge` (Constants.hpp:15): ten times the machine epsilon `2^-52`. -/
noncomputable def nudge : ℝ := 10 * (2 : ℝ) ^ (-52 : ℤ)

/-- `GetCollisionProbabilityDensity` of the two methods (TransportMethod.cpp:79-82,
124-127). -/
noncomputable def collisionDensity (method : Method) (p : Particle) : Res ℝ := noexcept do
  let c ← p.getCell
  match c.material with
  | none => .error .ub
  | some m =>
    match method with
    | .surfaceTracking => m.getMicroscopicTotal p
    | .cellDeltaTracking => m.getMicroscopicMajorant p

/-- `TotalCrossSectionPerturbation::Stream` (Perturbation.cpp:68-78); `atom_fractions.find`
compares addresses.  The reciprocal of zero is infinite: outcome `nan`. -/
noncomputable def Perturbation.stream (q : Perturbation) (method : Method) (p : Particle)
    (distance : ℝ) : Res ℝ := noexcept do
  let c ← p.getCell
  match c.material with
  | none => .error .ub
  | some m =>
    if m.afracs.any (fun e => e.1.id == q.nuclideId) then
      let density ← collisionDensity method p
      if density = 0 then .error .nan else .ok (1 / density - distance)
    else .ok 0

/-- The loop over the perturbations in `Particle::Stream` (Particle.cpp:48-50). -/
noncomputable def streamEffects (method : Method) (p : Particle) (distance : ℝ) :
    List (Perturbation × ℝ) → Res (List (Perturbation × ℝ))
  | [] => .ok []
  | (q, x) :: rest => do
    let d ← q.stream method p distance
    let rest' ← streamEffects method p distance rest
    .ok ((q, x + d) :: rest')

/-- `Particle::Stream` (Particle.cpp:46-53).  An infinite distance makes the position infinite
or not a number: outcome `nan`. -/
noncomputable def Particle.stream (method : Method) (p : Particle) : WithTop ℝ → Res Particle
  | ⊤ => .error .nan
  | (d : ℝ) => do
    let effects ← streamEffects method p d p.indirectEffects
    .ok { p with indirectEffects := effects, position := p.position + p.direction.smul d }

/-- `p.SetCell(w.FindCellContaining(p.GetPosition()))` (TransportMethod.cpp:55, 69, 91,
101). -/
noncomputable def Particle.locate (p : Particle) (w : World) : Res Particle := do
  let c ← w.findCellContaining p.position
  .ok { p with cell := some c }

/-- The surface crossing branch (TransportMethod.cpp:68-72, 100-104). -/
noncomputable def crossSurface (method : Method) (w : World) (p : Particle)
    (surface : SurfaceObj) (distance : WithTop ℝ) : Res Particle := do
  let p ← p.stream method (distance + (nudge : WithTop ℝ))
  let p ← p.locate w
  let c ← p.getCell
  .ok { p with
    currentSurface := some surface
    event := if c.material.isSome then .surfaceCross else .leak }

/-- The collision branch (TransportMethod.cpp:63-65, 110-112). -/
noncomputable def collide (method : Method) (fuel : ℕ) (p : Particle)
    (distance : WithTop ℝ) : Res Particle := do
  let p ← p.stream method distance
  let (n, p) ← p.sampleNuclide
  n.interact fuel p

/-- Sampling the distance to the next collision (TransportMethod.cpp:57-59, 93-95). -/
noncomputable def sampleFlight (method : Method) (p : Particle) :
    Res (WithTop ℝ × Particle) := do
  let c ← p.getCell
  match c.material with
  | none => .error .ub
  | some m =>
    let density ← collisionDensity method p
    let (d, rng) := Rng.exponential (m.numberDensity * density) p.rng
    .ok (d, { p with rng := rng })

/-- One round of the loop in `SurfaceTracking::Transport` (TransportMethod.cpp:57-73). -/
noncomputable def surfaceStep (fuel : ℕ) (w : World) (p : Particle) : Res Particle := do
  let (dc, p) ← sampleFlight .surfaceTracking p
  let c ← p.getCell
  let (surface, ds) ← c.nearestSurface p.position p.direction
  if dc < ds then collide .surfaceTracking fuel p dc
  else crossSurface .surfaceTracking w p surface ds

/-- The probability on TransportMethod.cpp:106-108; a zero majorant gives not a number. -/
noncomputable def acceptance (p : Particle) : Res ℝ := do
  let c ← p.getCell
  match c.material with
  | none => .error .ub
  | some m =>
    let total ← m.getMicroscopicTotal p
    let majorant ← m.getMicroscopicMajorant p
    if majorant = 0 then .error .nan else .ok (total / majorant)

/-- One round of the loop in `CellDeltaTracking::Transport` (TransportMethod.cpp:93-118). -/
noncomputable def deltaStep (fuel : ℕ) (w : World) (p : Particle) : Res Particle := do
  let (dc, p) ← sampleFlight .cellDeltaTracking p
  let c ← p.getCell
  let (surface, ds) ← c.nearestSurface p.position p.direction
  if ds < dc then crossSurface .cellDeltaTracking w p surface ds
  else
    let prob ← acceptance p
    let (accepted, rng) := Rng.bernoulli prob p.rng
    let p := { p with rng := rng }
    if accepted then collide .cellDeltaTracking fuel p dc
    else
      let p ← p.stream .cellDeltaTracking dc
      .ok { p with event := .virtualCollision }

/-- One round of the transport loop of either method, without the scoring (TransportMethod.cpp
57-73, 93-118). -/
noncomputable def transportStep (method : Method) (fuel : ℕ) (w : World) (p : Particle) :
    Res Particle :=
  match method with
  | .surfaceTracking => surfaceStep fuel w p
  | .cellDeltaTracking => deltaStep fuel w p

/-- `while (p.IsAlive()) { ...; e.Score(p); }` (TransportMethod.cpp:56-75, 92-120) with at most
`n` rounds.  Returns the final particle and the list of states that were passed to
`e.Score`, which does not change the particle. -/
noncomputable def transportLoop (method : Method) (fuel : ℕ) (w : World) :
    ℕ → Particle → Res (Particle × List Particle)
  | 0, p => if p.isAlive then .error .fuel else .ok (p, [])
  | n + 1, p =>
    if p.isAlive then do
      let p' ← transportStep method fuel w p
      let (last, scored) ← transportLoop method fuel w n p'
      .ok (last, p' :: scored)
    else .ok (p, [])

/-- `TransportMethod::Transport` (TransportMethod.cpp:52-77, 88-122). -/
noncomputable def transport (method : Method) (fuel : ℕ) (w : World) (p : Particle) :
    Res (Particle × List Particle) := noexcept do
  let p ← p.locate w
  transportLoop method fuel w fuel p

end Minimc
