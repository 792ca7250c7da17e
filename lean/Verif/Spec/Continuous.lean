import Verif.Model.Continuous

/-! # What continuous-energy data must satisfy -/

namespace Minimc.Spec

open Classical

/-- A particle of energy `e` at a place where the temperature is `t`, in a cell whose temperature is
declared to be at most `T`. -/
structure Thermal (p : Particle) (e t T : ℝ) : Prop where
  energy : p.energy = .continuous e
  cell : ∃ c, p.cell = some c ∧ c.temperature.at' p.position = t ∧ c.temperature.upperBound = T
  positive : 0 < e
  nonneg : 0 ≤ t
  bound : t ≤ T

/-- The thermal scattering data covers the particle. -/
def Covers (s : ThermalScattering) (p : Particle) (e : ℝ) : Prop :=
  p.type = .neutron ∧ e < s.cutoffEnergy

/-- `v` is the tabulated cross section of the reaction; it is not negative, temperatures and masses
make sense, and where thermal scattering data applies its own majorant bounds its total. -/
structure GoodReaction (p : Particle) (e t : ℝ) (r : ContinuousReaction) (v : ℝ) : Prop where
  table : r.evaluation.xs.at' e = .ok v
  nonneg : 0 ≤ v
  temperature : 0 ≤ r.evaluation.temperature
  mass : ∀ ev tsl awr, r = .scatter ev tsl awr → 0 < awr
  thermal : ∀ ev s awr, r = .scatter ev (some s) awr → Covers s p e →
    ∃ a b, s.totalAt e t = .ok a ∧ s.majorant.at' e = .ok b ∧ 0 ≤ a ∧ a ≤ b

/-- Continuous-energy data whose tabulated total is the sum of the tabulated reactions. -/
structure GoodContinuous (p : Particle) (e t : ℝ) (c : Continuous) (v : ContinuousReaction → ℝ) :
    Prop where
  reactions : ∀ r ∈ c.reactions, GoodReaction p e t r (v r)
  temperature : 0 ≤ c.total.temperature
  total : c.total.xs.at' e = .ok (c.reactions.map v).sum

end Minimc.Spec
