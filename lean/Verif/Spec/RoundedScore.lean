import Verif.Spec.Score

/-! # Specification of exact counts -/

open Classical

namespace Minimc.Spec

/-- Number of states that crossed the surface and belong to bin `i`, `index` giving the bin. -/
noncomputable def crossingsIn (surface : SurfaceObj) (index : Particle → Res ℕ) (i : ℕ)
    (states : List Particle) : ℕ :=
  states.countP (fun p => decide (Crossed surface p ∧ index p = .ok i))

/-- The sum over the histories of a number each of them has. -/
def total (histories : List (List Particle)) (count : List Particle → ℕ) : ℕ :=
  (histories.map count).sum

end Minimc.Spec
