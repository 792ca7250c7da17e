import Verif.Model.Thermal
import Verif.Model.Multigroup
import Mathlib.MeasureTheory.Integral.IntervalIntegral.Basic
import Mathlib.Analysis.SpecialFunctions.Log.Basic

/-! # Continuous-energy interactions (Continuous.cpp, ContinuousEvaluation.cpp,
ContinuousReaction.cpp) -/

namespace Minimc

open Classical

/-- `std::erf` (ContinuousReaction.cpp:234), by its defining integral. -/
noncomputable def erf (x : ℝ) : ℝ :=
  2 / Real.sqrt Real.pi * ∫ t in (0 : ℝ)..x, Real.exp (-t ^ 2)

/-- `constants::neutron_mass` (Constants.hpp:26). -/
noncomputable def neutronMass : ℝ := 1.045354912280858e-18

/-- `constants::relative_temperature_difference_tolerance` (Constants.hpp:29). -/
noncomputable def temperatureTolerance : ℝ := 0.01

/-- `ContinuousEvaluation::IsValid` (ContinuousEvaluation.cpp:17-20).  For an evaluation at zero
temperature the quotient is plus infinity, not a number or minus infinity, so that only
negative requests compare below the tolerance. -/
noncomputable def ContinuousEvaluation.isValid (ev : ContinuousEvaluation) (requested : ℝ) :
    Bool :=
  if ev.temperature = 0 then decide (requested < 0)
  else decide ((requested - ev.temperature) / ev.temperature < temperatureTolerance)

/-- `IsFreeGasScatteringValid` (ContinuousReaction.cpp:207-223). -/
noncomputable def isFreeGasScatteringValid (awr : ℝ) (p : Particle) (t : ℝ) : Res Bool :=
  noexcept <|
  if p.type ≠ .neutron then .ok false
  else if awr ≤ 1 then .ok true
  else do
    let e ← p.energy.getContinuous
    .ok (decide (e < 500 * boltzmann * t / awr))

/-- The formula of `GetFreeGasScatterAdjustment` (ContinuousReaction.cpp:234-235). -/
noncomputable def adjustmentOf (arg : ℝ) : ℝ :=
  (1 + 1 / (2 * arg)) * erf (Real.sqrt arg) + Real.exp (-arg) / Real.sqrt (Real.pi * arg)

/-- `GetFreeGasScatterAdjustment` (ContinuousReaction.cpp:225-237) at an energy.  A negative
argument of a square root and `infinity * erf(0)` are not numbers. -/
noncomputable def freeGasAdjustment (awr e t : ℝ) : Res ℝ :=
  if t = 0 then .ok 1
  else
    let arg := awr * Real.sqrt (e / (boltzmann * t)) * Real.sqrt (e / (boltzmann * t))
    if e / (boltzmann * t) < 0 ∨ arg ≤ 0 then .error .nan
    else .ok (adjustmentOf arg)

namespace ContinuousReaction

/-- The `evaluation` member (ContinuousReaction.hpp:54). -/
def evaluation : ContinuousReaction → ContinuousEvaluation
  | .capture ev => ev
  | .scatter ev _ _ => ev
  | .fission ev _ => ev

/-- `evaluation.xs.at(std::get<ContinuousEnergy>(p.GetEnergy()))` (ContinuousReaction.cpp:52,
84, 94, 105, 115). -/
noncomputable def tabulated (ev : ContinuousEvaluation) (p : Particle) : Res ℝ := do
  ev.xs.at' (← p.energy.getContinuous)

/-- `tsl.has_value() && tsl->IsValid(p)` (ContinuousReaction.cpp:74, 79, 100, 121). -/
noncomputable def thermal (tsl : Option ThermalScattering) (p : Particle) : Res Bool :=
  match tsl with
  | none => .ok false
  | some s => s.isValid p

/-- `ModifiesTotal` (ContinuousReaction.cpp:41-43, 73-75). -/
noncomputable def modifiesTotal (r : ContinuousReaction) (p : Particle) : Res Bool :=
  match r with
  | .capture _ => .ok false
  | .scatter _ tsl _ => thermal tsl p
  | .fission _ _ => .ok false

/-- The scatter cross section at temperature `t` when thermal scattering does not apply
(ContinuousReaction.cpp:82-95, 103-116). -/
noncomputable def scatterXSAt (ev : ContinuousEvaluation) (awr : ℝ) (p : Particle) (t : ℝ) :
    Res ℝ := do
  if ev.isValid t then tabulated ev p
  else if ← isFreeGasScatteringValid awr p t then
    let xs ← tabulated ev p
    let e ← p.energy.getContinuous
    let a ← freeGasAdjustment awr e ev.temperature
    let b ← freeGasAdjustment awr e t
    .ok (xs / a * b)
  else tabulated ev p

/-- `GetMajorant` (ContinuousReaction.cpp:45-48, 77-96). -/
noncomputable def getMajorant (r : ContinuousReaction) (p : Particle) : Res ℝ := noexcept <|
  match r with
  | .capture ev => tabulated ev p
  | .fission ev _ => tabulated ev p
  | .scatter ev tsl awr =>
    match tsl with
    | none => do scatterXSAt ev awr p (← p.temperatureUpper)
    | some s => do
      if ← s.isValid p then s.getMajorant p
      else scatterXSAt ev awr p (← p.temperatureUpper)

/-- `GetCrossSection` (ContinuousReaction.cpp:50-53, 98-117). -/
noncomputable def getCrossSection (r : ContinuousReaction) (p : Particle) : Res ℝ :=
  noexcept <|
  match r with
  | .capture ev => tabulated ev p
  | .fission ev _ => tabulated ev p
  | .scatter ev tsl awr =>
    match tsl with
    | none => do scatterXSAt ev awr p (← p.temperatureAt)
    | some s => do
      if ← s.isValid p then s.getTotal p
      else scatterXSAt ev awr p (← p.temperatureAt)

end ContinuousReaction

namespace FreeGas

/-- Speed sampled in the first branch (ContinuousReaction.cpp:152). -/
noncomputable def speedA (xi1 xi2 : ℝ) : ℝ := Real.sqrt (-Real.log (xi1 * xi2))

/-- Speed sampled in the second branch (ContinuousReaction.cpp:157-158). -/
noncomputable def speedB (xi1 xi2 xi3 : ℝ) : ℝ :=
  let z := Real.cos (Real.pi * xi3 / 2)
  Real.sqrt (-Real.log xi1 - Real.log xi2 * z * z)

/-- Probability of the first branch (ContinuousReaction.cpp:150-151). -/
noncomputable def branchProb (y : ℝ) : ℝ := 2 / (Real.sqrt Real.pi * y + 2)

/-- Acceptance probability (ContinuousReaction.cpp:161). -/
noncomputable def acceptProb (x y mu : ℝ) : ℝ :=
  Real.sqrt (x * x + y * y - 2 * x * y * mu) / (x + y)

/-- One pass through the body of the rejection loop (ContinuousReaction.cpp:148-160): the
candidate speed and cosine. -/
noncomputable def candidate (y : ℝ) (p : Particle) : ℝ × ℝ × Particle :=
  let (xi1, p) := p.sample
  let (xi2, p) := p.sample
  let (u, p) := p.sample
  if u < branchProb y then
    let (v, p) := p.sample
    (speedA xi1 xi2, 2 * v - 1, p)
  else
    let (xi3, p) := p.sample
    let (v, p) := p.sample
    (speedB xi1 xi2 xi3, 2 * v - 1, p)

/-- The rejection loop (ContinuousReaction.cpp:147-161) with at most `n` rounds. -/
noncomputable def targetLoop (y : ℝ) : ℕ → Particle → Res (ℝ × ℝ × Particle)
  | 0, _ => .error .fuel
  | n + 1, p =>
    let (x, mu, p) := candidate y p
    let (u, p) := p.sample
    if u ≥ acceptProb x y mu then targetLoop y n p else .ok (x, mu, p)

/-- Velocity of the centre of mass (ContinuousReaction.cpp:171). -/
noncomputable def centreOfMass (awr : ℝ) (vn vT : Point) : Point :=
  (vn + vT.smul awr).sdiv (1 + awr)

/-- Outgoing velocity in the laboratory (ContinuousReaction.cpp:171-183) given the cosine and
azimuth in the centre-of-mass frame.  The relative velocity is implicitly converted to a
`Direction` (line 178). -/
noncomputable def outgoingVelocity (awr : ℝ) (vn vT : Point) (muCm phiCm : ℝ) :
    Res Point := do
  let vcm := centreOfMass awr vn vT
  let V := vn - vcm
  let d ← Direction.ofPoint V
  let d' ← Direction.rotated d muCm phiCm
  .ok (d'.smul (Real.sqrt (V.dot V)) + vcm)

/-- Speed of a neutron (ContinuousReaction.cpp:134). -/
noncomputable def neutronSpeed (e : ℝ) : ℝ := Real.sqrt (2 * e / neutronMass)

/-- `beta` (ContinuousReaction.cpp:137-139). -/
noncomputable def betaOf (awr t : ℝ) : ℝ :=
  Real.sqrt ((awr * neutronMass) / (2 * boltzmann * t))

/-- Speed of the target and cosine between it and the neutron (ContinuousReaction.cpp:137-163).
At zero temperature `beta` is infinite: both rejection comparisons are then with not-a-number or
zero and false, so one pass is made with the second branch, and the target is at rest. -/
noncomputable def sampleTarget (fuel : ℕ) (awr e t : ℝ) (p : Particle) :
    Res (ℝ × ℝ × Particle) :=
  if t = 0 then
    let (_, p) := p.sample
    let (_, p) := p.sample
    let (_, p) := p.sample
    let (_, p) := p.sample
    let (v, p) := p.sample
    let (_, p) := p.sample
    .ok (0, 2 * v - 1, p)
  else do
    let (x, mu, p) ← targetLoop (betaOf awr t * neutronSpeed e) fuel p
    if betaOf awr t = 0 then .error .nan else .ok (x / betaOf awr t, mu, p)

/-- The rest of the collision (ContinuousReaction.cpp:164-186) with a target of speed `s` at
cosine `mu`. -/
noncomputable def collideWith (awr e s mu : ℝ) (p : Particle) : Res Particle := do
  let vn := p.direction.smul (neutronSpeed e)
  let (u, p) := p.sample
  let dT ← Direction.rotated p.direction mu (2 * Real.pi * u)
  let vT := dT.smul s
  let (w, p) := p.sample
  let (w', p) := p.sample
  let v' ← outgoingVelocity awr vn vT (2 * w - 1) (2 * Real.pi * w')
  let d' ← Direction.ofPoint v'
  p.scatter (p.direction.dot d') (.continuous (1 / 2 * neutronMass * v'.dot v'))

/-- `ContinuousScatter::Interact` without thermal data (ContinuousReaction.cpp:130-186).
Negative energies and temperatures make square roots not a number. -/
noncomputable def interact (fuel : ℕ) (awr : ℝ) (p : Particle) : Res Particle := do
  let e ← p.energy.getContinuous
  let t ← p.temperatureAt
  if e < 0 ∨ t < 0 ∨ awr < 0 then .error .nan
  else
    let (s, mu, p) ← sampleTarget fuel awr e t p
    collideWith awr e s mu p

end FreeGas

namespace ContinuousReaction

/-- The loop banking fission neutrons (ContinuousReaction.cpp:258-264), `n` rounds left. -/
noncomputable def bankLoop : ℕ → Particle → Particle
  | 0, p => p
  | n + 1, p =>
    let (d, rng) := Direction.isotropic p.rng
    bankLoop n ({ p with rng := rng }.bankSecondary d p.energy)

/-- `ContinuousFission::Interact` (ContinuousReaction.cpp:252-265). -/
noncomputable def fissionInteract (nubar : Option ContinuousMap) (p : Particle) :
    Res Particle := do
  let p := { p with event := .fission }
  let table ← Multigroup.optValue nubar
  let e ← p.energy.getContinuous
  let nu ← table.at' e
  let (u, p) := p.sample
  let yield ← toSize (nu + u)
  .ok (bankLoop yield p)

/-- `ContinuousScatter::Interact` (ContinuousReaction.cpp:119-189). -/
noncomputable def scatterInteract (fuel : ℕ) (tsl : Option ThermalScattering) (awr : ℝ)
    (p : Particle) : Res Particle :=
  let p := { p with event := .scatter }
  match tsl with
  | none => FreeGas.interact fuel awr p
  | some s => do
    if ← s.isValid p then s.scatter p else FreeGas.interact fuel awr p

/-- `Interact` of the three reactions (ContinuousReaction.cpp:60-62, 119-189, 252-265). -/
noncomputable def interact (fuel : ℕ) (r : ContinuousReaction) (p : Particle) : Res Particle :=
  noexcept <|
  match r with
  | .capture _ => .ok { p with event := .capture }
  | .scatter _ tsl awr => scatterInteract fuel tsl awr p
  | .fission _ nubar => fissionInteract nubar p

end ContinuousReaction

namespace Continuous

/-- `ReactionsModifyTotal` (Continuous.cpp:87-91): `std::any_of`. -/
noncomputable def anyModifies (p : Particle) : List ContinuousReaction → Res Bool
  | [] => .ok false
  | r :: rs => do if ← r.modifiesTotal p then .ok true else anyModifies p rs

/-- `Continuous::GetMajorant` (Continuous.cpp:26-40). -/
noncomputable def getMajorant (c : Continuous) (p : Particle) : Res ℝ := noexcept do
  let t ← p.temperatureUpper
  if !(← anyModifies p c.reactions) && c.total.isValid t then
    ContinuousReaction.tabulated c.total p
  else sumLoop (fun r => r.getMajorant p) 0 c.reactions

/-- `Continuous::GetTotal` (Continuous.cpp:42-55). -/
noncomputable def getTotal (c : Continuous) (p : Particle) : Res ℝ := noexcept do
  let t ← p.temperatureAt
  if !(← anyModifies p c.reactions) && c.total.isValid t then
    ContinuousReaction.tabulated c.total p
  else sumLoop (fun r => r.getCrossSection p) 0 c.reactions

/-- The loop over the reactions (Continuous.cpp:60-67) with the given threshold. -/
noncomputable def selectReaction (c : Continuous) (p : Particle) (threshold : ℝ) :
    Res (Option ContinuousReaction) :=
  selectLoop (fun r => r.getCrossSection p) threshold 0 c.reactions

/-- `Continuous::Interact` (Continuous.cpp:57-70) with at most `n` rounds of resampling. -/
noncomputable def interactLoop (c : Continuous) (fuel : ℕ) : ℕ → Particle → Res Particle
  | 0, _ => .error .fuel
  | n + 1, p => do
    let (u, p) := p.sample
    let total ← c.getTotal p
    match ← c.selectReaction p (u * total) with
    | some r => r.interact fuel p
    | none => interactLoop c fuel n p

/-- `Continuous::Interact` (Continuous.cpp:57-70). -/
noncomputable def interact (c : Continuous) (fuel : ℕ) (p : Particle) : Res Particle :=
  noexcept (c.interactLoop fuel fuel p)

end Continuous
end Minimc
