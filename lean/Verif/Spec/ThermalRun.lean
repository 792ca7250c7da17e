import Verif.Spec.ContinuousRun
import Verif.Spec.ThermalLaw

/-! # Specification: continuous-energy problems with thermal scattering data -/

namespace Minimc.Spec

/-- Thermal data with positive total cross sections up to its largest energy, and with a positive
bound on them. -/
structure SoundScatterer (s : ThermalScattering) : Prop where
  total : ∃ es ts X, TotalTable s es ts X ∧ es.getLast? = some s.cutoffEnergy ∧
    ∀ i j, i < es.length → j < ts.length → 0 < X i j
  majorant : ∀ e, 0 < e → ∃ v, s.majorant.at' e = .ok v ∧ 0 < v

/-- A reaction whose numbers make sense; scattering may have thermal data, fission has a yield. -/
structure SoundThermalReaction (r : ContinuousReaction) : Prop where
  table : SoundTable r.evaluation.xs
  temperature : 0 ≤ r.evaluation.temperature
  scatter : ∀ ev tsl awr, r = .scatter ev tsl awr →
    0 < awr ∧ ∀ s, tsl = some s → SoundScatterer s
  fission : ∀ ev nubar, r = .fission ev nubar → ∃ m, nubar = some m ∧ SoundTable m

/-- Reactions that make sense, and a total that is the sum of their tables. -/
structure SoundThermalData (c : Continuous) : Prop where
  reactions : ∀ r ∈ c.reactions, SoundThermalReaction r
  temperature : 0 ≤ c.total.temperature
  total : ∀ e, 0 < e → ∀ v : ContinuousReaction → ℝ,
    (∀ r ∈ c.reactions, r.evaluation.xs.at' e = .ok (v r)) →
    c.total.xs.at' e = .ok (c.reactions.map v).sum

/-- As `ContinuousWorld`, but nuclides may have thermal scattering data. -/
structure ThermalWorld (w : World) : Prop where
  covered : ∀ x, ∃ c ∈ w.cells, InCell c x
  bounded : ∀ c ∈ w.cells, c.material ≠ none → c.surfaceSenses ≠ []
  density : ∀ c ∈ w.cells, ∀ m, c.material = some m → 0 < m.numberDensity
  upper : ∀ c ∈ w.cells, c.material ≠ none → 0 ≤ c.temperature.upperBound
  data : ∀ c ∈ w.cells, ∀ m, c.material = some m → ∀ x ∈ m.afracs,
    0 < x.2 ∧ ∃ d, x.1.xs .neutron = some (.continuous d) ∧ SoundThermalData d
  reacts : ∀ c ∈ w.cells, ∀ m, c.material = some m → ∀ e, 0 < e →
    ∃ x ∈ m.afracs, ∃ d σ, x.1.xs .neutron = some (.continuous d) ∧ d.total.xs.at' e = .ok σ ∧ 0 < σ

/-- Thermal data as it is built from files, whose tables at temperature `t` serve a neutron of
energy `e`: its energy has the neighbours `x` and `y`, the upper with weight `w`. -/
def Served (s : ThermalScattering) (e t w : ℝ) (x y : ℝ × Curve) : Prop :=
  ∃ maj xsT xsS xsE bp ap L M,
    ThermalScattering.create maj xsT xsS xsE bp ap s.betaCutoff s.alphaCutoff s.awr = .ok s ∧
    Tabulates bp t L ∧ Tabulates ap t M ∧ 0 < t ∧ 0 < s.awr ∧ Neighbours L e w x y ∧
    x.2.Sound (allLost x.1 t) s.betaCutoff ∧ y.2.Sound (allLost y.1 t) s.betaCutoff ∧
    Serves M s.betaCutoff s.alphaCutoff s.awr e t

/-- The random numbers that the particle draws next. -/
noncomputable def nextNumbers (p : Particle) (k : ℕ) : ℝ :=
  (Rng.canonical (Rng.next^[2 * k] p.rng)).1

/-- The tables do not serve the particle. -/
def Unserved (s : ThermalScattering) (p : Particle) : Prop :=
  ∃ e t, p.energy = .continuous e ∧ p.temperatureAt = .ok t ∧ ¬ ∃ w x y, Served s e t w x y

/-- The tables serve the particle, but none of ten energy transfers is one that it can afford. -/
def GivesUp (s : ThermalScattering) (p : Particle) : Prop :=
  ∃ e t w x y, p.energy = .continuous e ∧ p.temperatureAt = .ok t ∧ Served s e t w x y ∧
    NoTransfer w y e t s.betaCutoff (nextNumbers p)

/-- The tables serve the particle, and it transfers exactly all of its energy. -/
def LosesAll (s : ThermalScattering) (p : Particle) : Prop :=
  ∃ e t w x y k, p.energy = .continuous e ∧ p.temperatureAt = .ok t ∧ Served s e t w x y ∧
    EnergyTransfer w x y e t s.betaCutoff (nextNumbers p) k (allLost e t)

/-- In its next collision, after flying some distance and some draws, the particle is scattered by
thermal data to which it stands in the relation `Q`. -/
def NextThermal (Q : ThermalScattering → Particle → Prop) (p : Particle) : Prop :=
  ∃ c m n d ev A s e t k eff, p.cell = some c ∧ c.material = some m ∧ n ∈ m.afracs ∧
    n.1.xs .neutron = some (.continuous d) ∧
    ContinuousReaction.scatter ev (some s) A ∈ d.reactions ∧
    p.energy = .continuous e ∧ e < s.cutoffEnergy ∧
    Q s { p with
      position := along p.position p.direction t, rng := Rng.next^[k] p.rng, event := .scatter,
      indirectEffects := eff }

/-- This happens to a particle of the history. -/
def HistoryThermal (Q : ThermalScattering → Particle → Prop) (P : Problem) (fuel e : ℕ) : Prop :=
  ∃ p c q, Handled P fuel e p ∧ FirstCell P.world p.position c ∧
    StepsTo P.method fuel P.world { p with cell := some c } q ∧ NextThermal Q q

/-- What goes wrong in thermal scattering, when `N Q` says that it is met by a particle that stands
in the relation `Q` to the data: the program terminates if no energy transfer can be afforded, a
particle that loses all of its energy gets a direction that is not a number, and nothing is said
about particles that the tables do not serve. -/
def ThermalEnd {α : Type} (r : Res α) (N : (ThermalScattering → Particle → Prop) → Prop) : Prop :=
  (r = .error .terminate ∧ N GivesUp) ∨ (r = .error .nan ∧ N LosesAll) ∨ N Unserved

end Minimc.Spec
