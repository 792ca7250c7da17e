import Verif.Model.Double

/-!
# Underflow

`double` has no least exponent.  Here is what becomes of numbers below the least normal double.
-/

namespace Minimc

open Classical in
/-- Rounding to the nearest double, ties to even, with gradual underflow: below `2 ^ -1022` doubles are the
multiples of `2 ^ -1074` (`Real`, BasicTypes.hpp:10).  Simplification: there is no overflow. -/
noncomputable def gradual (x : ℝ) : ℝ :=
  if |x| < (2 : ℝ) ^ (-1022 : ℤ) then nearestEven (x / (2 : ℝ) ^ (-1074 : ℤ)) * (2 : ℝ) ^ (-1074 : ℤ)
  else double x

end Minimc
