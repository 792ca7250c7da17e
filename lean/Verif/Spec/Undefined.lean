import Verif.Spec.Run
import Verif.Spec.Score

/-! # Specification: the only data that lead to undefined behaviour -/

namespace Minimc.Spec

/-- A table with an entry. -/
def Filled (m : ContinuousMap) : Prop := m ≠ []

/-- What a reaction of continuous energy must have: a table of cross sections that is not empty,
thermal data, if any, whose majorant is not empty, and yields, if any, that are tabulated and not
negative.  Nothing is asked of the values of cross sections, of the order of the energies, of
temperatures, or of the thermal data sets. -/
def FilledReaction : ContinuousReaction → Prop
  | .capture ev => Filled ev.xs
  | .scatter ev tsl _ => Filled ev.xs ∧ ∀ s, tsl = some s → Filled s.majorant
  | .fission ev nubar => Filled ev.xs ∧ ∀ t, nubar = some t → Filled t ∧ ∀ e ∈ t, 0 ≤ e.2

/-- What an interaction must have. -/
def FilledInteraction : Interaction → Prop
  | .multigroup m => ∀ l, m.nubar = some l → ∀ nu ∈ l, 0 ≤ nu
  | .continuous c => Filled c.total.xs ∧ ∀ r ∈ c.reactions, FilledReaction r

/-- All data of all nuclides in the cells of the world. -/
def FilledData (w : World) : Prop :=
  ∀ c ∈ w.cells, ∀ m, c.material = some m → ∀ e ∈ m.afracs, ∀ t i, e.1.xs t = some i →
    FilledInteraction i

/-- Logarithmic bins for a value whose logarithm to the base is not a number. -/
def NoLogarithm (b : Bins) (v : ℝ) : Prop :=
  ∃ n base lo hi w, b = .logspace n base lo hi w ∧
    (v < 0 ∨ base < 0 ∨ (base = 0 ∧ v = 0) ∨ (base = 1 ∧ v = 1))

/-- The bins of direction or of energy ask for a logarithm that is not a number. -/
def NoPlace (b : ParticleBins) (p : Particle) : Prop :=
  (∃ ref, b.direction = some ref ∧ NoLogarithm b.cosine (ref.dot p.direction)) ∨
    NoLogarithm b.energy p.energy.toReal

/-- An estimator or a sensitivity that scores the state asks for a logarithm that is not a
number. -/
def ScoresNaN (s : EstimatorSet) (p : Particle) : Prop :=
  ∃ e ∈ s.estimators, (Crossed e.surface p ∧ NoPlace e.base.bins p) ∨
    ∃ q ∈ e.sensitivities, effectAtCrossing q.surface q.perturbation p ≠ 0 ∧
      NoPlace q.base.bins p

end Minimc.Spec
