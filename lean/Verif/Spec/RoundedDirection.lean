import Verif.Model.RoundedDirection
import Verif.Lemmas.Rng

/-! # Directions in double precision -/

namespace Minimc
namespace Spec

/-- A vector of unit length up to `2 ^ -48`. -/
def NearlyUnit (d : Point) : Prop := |d.x ^ 2 + d.y ^ 2 + d.z ^ 2 - 1| ≤ 1 / 2 ^ 48

/-- The cosine and sine of a mathematical library, accurate to one unit in the last place of 1. -/
def Accurate (cosine sine : ℝ → ℝ) : Prop :=
  ∀ x, |cosine x - Real.cos x| ≤ 1 / 2 ^ 52 ∧ |sine x - Real.sin x| ≤ 1 / 2 ^ 52

/-- The directions a particle can have: one given in the input or made from a velocity, one drawn at
random, one after a scattering. -/
inductive Flown (rnd cosine sine : ℝ → ℝ) : Direction → Prop
  | given {p d} : Rounded.normalize rnd p = .ok d → Flown rnd cosine sine d
  | drawn {g d g'} : Rng.Valid g → Rounded.isotropic rnd cosine sine g = .ok (d, g') →
      Flown rnd cosine sine d
  | scattered {d mu phi d'} : Flown rnd cosine sine d →
      Rounded.rotated rnd cosine sine d mu phi = .ok d' → Flown rnd cosine sine d'

end Spec
end Minimc
