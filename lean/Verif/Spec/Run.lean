import Verif.Spec.Transport
import Verif.Model.Driver

/-! # Specification: the particles of a history and where they are -/

namespace Minimc.Spec

/-- The particles that are transported in the history with number `e`: the one from the source,
and all that are banked while one of them is transported. -/
inductive Handled (P : Problem) (fuel e : ℕ) : Particle → Prop where
  | source {born : Born} : P.source.sample (P.seed + e) = .ok born →
      Handled P fuel e ((Particle.ofBorn born).setPerturbations P.perturbations)
  | secondary {p last : Particle} {scored : List Particle} {b : Born} : Handled P fuel e p →
      transport P.method fuel P.world p = .ok (last, scored) → b ∈ last.secondaries →
      Handled P fuel e ((Particle.ofBorn b).setPerturbations P.perturbations)

/-- The first cell that contains the particle has no material. -/
def StartsInVoid (w : World) (p : Particle) : Prop :=
  ∃ c, FirstCell w p.position c ∧ c.material = none

/-- Cells without material come after the cells with material that they overlap. -/
def MaterialFirst (w : World) : Prop :=
  ∀ x, ∀ c ∈ w.cells, InCell c x → c.material ≠ none →
    ∀ c', FirstCell w x c' → c'.material ≠ none

/-- On its way the particle begins or ends a step exactly on a surface. -/
def TouchesSurface (method : Method) (fuel : ℕ) (w : World) (p : Particle) : Prop :=
  ∃ last scored, transport method fuel w p = .ok (last, scored) ∧
    ∃ q ∈ p :: scored, ∃ c ∈ w.cells, ∃ s, Bounds s c ∧ OnSurface s.shape q.position

/-- A source of neutrons in one of the groups, in a cell with material. -/
structure GroupSource (G : ℕ) (w : World) (s : Source) : Prop where
  type : s.type = .neutron
  group : ∃ g, s.energy = .group g ∧ 1 ≤ g ∧ g ≤ G
  place : ∃ c, FirstCell w s.position c ∧ c.material ≠ none

/-- Bins that have a place for every direction and every energy that is not negative: no
logarithms of cosines, and only logarithms to a base above one. -/
def TotalBins (b : ParticleBins) : Prop :=
  (∀ n base lo hi w, b.direction ≠ none → b.cosine ≠ .logspace n base lo hi w) ∧
    ∀ n base lo hi w, b.energy = .logspace n base lo hi w → 1 < base

end Minimc.Spec
