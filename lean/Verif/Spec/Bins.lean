import Verif.Model.Bins

/-! # Specification of bins -/

namespace Minimc.Spec

open Classical

/-- How many of the boundaries are not above `v`. -/
noncomputable def countNotAbove (boundaries : List ℝ) (v : ℝ) : ℕ :=
  boundaries.countP (fun b => decide (b ≤ v))

/-- The bin structures a user can obtain: no bins, or the result of an accepted
specification with at least one bin (the schema's `positiveInteger`). -/
inductive Created : Bins → Prop
  | none : Created .none
  | linspace {bins min max b} : 1 ≤ bins → Bins.createLinspace bins min max = .ok b → Created b
  | logspace {bins base min max b} : 1 ≤ bins → Bins.createLogspace bins base min max = .ok b →
      Created b
  | boundaries {bs b} : Bins.createBoundaries bs = .ok b → Created b

/-- Particle bins a user can obtain. -/
def CreatedParticleBins (b : ParticleBins) : Prop :=
  ∃ c e, Created c ∧ Created e ∧ ParticleBins.create b.direction (.ok c) (.ok e) = .ok b

/-- `c` is the cosine bin of a direction: the only bin when there is no reference direction,
otherwise the bin of the scalar product with the reference direction. -/
def CosineBin (b : ParticleBins) (dir : Direction) (c : ℕ) : Prop :=
  (b.direction = none ∧ c = 0) ∨
    ∃ ref, b.direction = some ref ∧ b.cosine.getIndex (ref.dot dir) = .ok c

end Minimc.Spec
