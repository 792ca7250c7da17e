import Verif.Spec.Run
import Verif.Model.Continuous

/-! # Specification: continuous-energy problems that transport can deal with -/

namespace Minimc.Spec

/-- The table has a value that is not negative for every positive energy. -/
def SoundTable (m : ContinuousMap) : Prop := ∀ e, 0 < e → ∃ v, m.at' e = .ok v ∧ 0 ≤ v

/-- A reaction without thermal scattering data whose numbers make sense; fission has a yield. -/
structure SoundReaction (r : ContinuousReaction) : Prop where
  table : SoundTable r.evaluation.xs
  temperature : 0 ≤ r.evaluation.temperature
  scatter : ∀ ev tsl awr, r = .scatter ev tsl awr → tsl = none ∧ 0 < awr
  fission : ∀ ev nubar, r = .fission ev nubar → ∃ m, nubar = some m ∧ SoundTable m

/-- Reactions that make sense, and a total that is the sum of their tables. -/
structure SoundContinuous (c : Continuous) : Prop where
  reactions : ∀ r ∈ c.reactions, SoundReaction r
  temperature : 0 ≤ c.total.temperature
  total : ∀ e, 0 < e → ∀ v : ContinuousReaction → ℝ,
    (∀ r ∈ c.reactions, r.evaluation.xs.at' e = .ok (v r)) →
    c.total.xs.at' e = .ok (c.reactions.map v).sum

/-- A continuous-energy problem that transport can deal with: every point is in a cell, cells with
material have a surface and a declared largest temperature that is not negative, and at every energy
something reacts in each material. -/
structure ContinuousWorld (w : World) : Prop where
  covered : ∀ x, ∃ c ∈ w.cells, InCell c x
  bounded : ∀ c ∈ w.cells, c.material ≠ none → c.surfaceSenses ≠ []
  density : ∀ c ∈ w.cells, ∀ m, c.material = some m → 0 < m.numberDensity
  upper : ∀ c ∈ w.cells, c.material ≠ none → 0 ≤ c.temperature.upperBound
  data : ∀ c ∈ w.cells, ∀ m, c.material = some m → ∀ x ∈ m.afracs,
    0 < x.2 ∧ ∃ d, x.1.xs .neutron = some (.continuous d) ∧ SoundContinuous d
  reacts : ∀ c ∈ w.cells, ∀ m, c.material = some m → ∀ e, 0 < e →
    ∃ x ∈ m.afracs, ∃ d σ, x.1.xs .neutron = some (.continuous d) ∧ d.total.xs.at' e = .ok σ ∧ 0 < σ

/-- A neutron with a positive energy. -/
structure EnergyNeutron (p : Particle) : Prop where
  type : p.type = .neutron
  energy : ∃ e, p.energy = .continuous e ∧ 0 < e
  rng : Rng.Valid p.rng
  direction : UnitVec p.direction

/-- The particle has a positive energy. -/
def Energetic (p : Particle) : Prop := ∃ e, p.energy = .continuous e ∧ 0 < e

/-- All that the particle has banked are neutrons with a positive energy. -/
def BanksEnergies (p : Particle) : Prop :=
  ∀ b ∈ p.secondaries, b.type = .neutron ∧ UnitVec b.direction ∧
    ∃ e, b.energy = .continuous e ∧ 0 < e

/-- The temperature of the cell is negative where the particle is. -/
def Frozen (p : Particle) : Prop := ∃ c, p.cell = some c ∧ c.temperature.at' p.position < 0

/-- The temperature of the cell is positive where the particle is. -/
def Warm (p : Particle) : Prop := ∃ c, p.cell = some c ∧ 0 < c.temperature.at' p.position

/-- The particle collides with a nucleus of `A` times its mass that moves, and comes to rest
exactly: the target of speed `s` is drawn, then its direction, then the angles of the outgoing
velocity, which is zero. -/
def StopsDead (fuel : ℕ) (A : ℝ) (p : Particle) : Prop :=
  ∃ e t s mu q V, p.energy = .continuous e ∧ p.temperatureAt = .ok t ∧ 0 < t ∧
    FreeGas.sampleTarget fuel A e t p = .ok (s, mu, q) ∧
    Direction.rotated p.direction mu (2 * Real.pi * (Rng.canonical q.rng).1) = .ok V ∧
    FreeGas.outgoingVelocity A (p.direction.smul (FreeGas.neutronSpeed e)) (V.smul s)
      (2 * (Rng.canonical (Rng.next^[2] q.rng)).1 - 1)
      (2 * Real.pi * (Rng.canonical (Rng.next^[4] q.rng)).1) = .ok ⟨0, 0, 0⟩

/-- The next collision of the particle stops it dead: after flying some distance and some draws it
collides with a nuclide of its material. -/
def NextStopsDead (fuel : ℕ) (p : Particle) : Prop :=
  ∃ c m n d ev tsl A t k eff, p.cell = some c ∧ c.material = some m ∧ n ∈ m.afracs ∧
    n.1.xs .neutron = some (.continuous d) ∧ ContinuousReaction.scatter ev tsl A ∈ d.reactions ∧
    StopsDead fuel A { p with
      position := along p.position p.direction t, rng := Rng.next^[k] p.rng, event := .scatter,
      indirectEffects := eff }

/-- The states in which the particle begins a step. -/
inductive StepsTo (method : Method) (fuel : ℕ) (w : World) : Particle → Particle → Prop where
  | refl (p : Particle) : StepsTo method fuel w p p
  | step {p p' q : Particle} : transportStep method fuel w p = .ok p' →
      StepsTo method fuel w p' q → StepsTo method fuel w p q

/-- The places that the particle may go through on its next flight, up to the nearest surface of
its cell. -/
def Ahead (p q : Particle) : Prop :=
  ∃ c t, p.cell = some c ∧ 0 ≤ t ∧ NoSurfaceBefore c p ((t : ℝ) : WithTop ℝ) ∧
    q = { p with position := along p.position p.direction t }

/-- The particle is at, or may fly through, a place with a negative temperature. -/
def MeetsFrost (p : Particle) : Prop := ∃ q, (q = p ∨ Ahead p q) ∧ Frozen q

/-- The particle may fly through a place with a positive temperature. -/
def MeetsWarmth (p : Particle) : Prop := ∃ q, Ahead p q ∧ Warm q

/-- The particle makes `n` steps and is alive before each of them and after the last. -/
def Lasts (method : Method) (fuel : ℕ) (w : World) : ℕ → Particle → Prop
  | 0, p => ¬ Ended p
  | n + 1, p => ¬ Ended p ∧ ∃ p', transportStep method fuel w p = .ok p' ∧ Lasts method fuel w n p'

/-- A source of neutrons with a positive energy, in a cell with material. -/
structure EnergySource (w : World) (s : Source) : Prop where
  type : s.type = .neutron
  energy : ∃ e, s.energy = .continuous e ∧ 0 < e
  place : ∃ c, FirstCell w s.position c ∧ c.material ≠ none

/-- A particle of the history is stopped dead by a collision with a moving target. -/
def HistoryStopsDead (P : Problem) (fuel e : ℕ) : Prop :=
  ∃ p c q, Handled P fuel e p ∧ FirstCell P.world p.position c ∧
    StepsTo P.method fuel P.world { p with cell := some c } q ∧ NextStopsDead fuel q

end Minimc.Spec
