import Verif.Spec.Score
import Verif.Spec.Bins
import Verif.Model.Driver

/-!
# Specification: coarse and fine bins

Bins of which some boundaries have been left out, and problems that differ in what they tally.
-/

namespace Minimc.Spec

/-- Every boundary of the coarse bins is a boundary of the fine bins: of cosines, which are taken with the
same direction, unless the coarse bins do not distinguish cosines, and of energies.  Boundaries are those
that are printed. -/
structure Divides (fine coarse : ParticleBins) : Prop where
  cosine : ∀ r, coarse.direction = some r → coarse.cosine = .none ∨
    (fine.direction = some r ∧ ∀ b ∈ coarse.cosine.printed, b ∈ fine.cosine.printed)
  energy : ∀ b ∈ coarse.energy.printed, b ∈ fine.energy.printed

/-- Whatever is in bin `j` of the fine bins is in bin `i` of the coarse ones. -/
def BinIn (fine : ParticleBins) (j : ℕ) (coarse : ParticleBins) (i : ℕ) : Prop :=
  ∀ d e, fine.getIndex d e = .ok j → ∀ k, coarse.getIndex d e = .ok k → k = i

/-- Logarithmic bins have a base above one. -/
def AboveOne (b : Bins) : Prop := ∀ n base lo hi w, b = .logspace n base lo hi w → 1 < base

/-- Problems in which only the estimators and the number of threads may differ. -/
structure SameHistories (P P' : Problem) : Prop where
  world : P'.world = P.world
  perturbations : P'.perturbations = P.perturbations
  batchsize : P'.batchsize = P.batchsize
  seed : P'.seed = P.seed
  method : P'.method = P.method
  source : P'.source = P.source

end Minimc.Spec
