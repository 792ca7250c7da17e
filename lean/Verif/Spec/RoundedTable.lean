import Mathlib.Analysis.SpecialFunctions.Log.Basic

/-! # Tables and flights in double precision -/

namespace Minimc
namespace Spec

/-- The logarithm of a mathematical library, accurate to one unit in the last place. -/
def AccurateLog (logarithm : ℝ → ℝ) : Prop := ∀ x, 0 < x → |logarithm x - Real.log x| ≤ |Real.log x| / 2 ^ 52

end Spec
end Minimc
