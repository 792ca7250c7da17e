import Verif.Model.Basic
import Mathlib.Data.Int.Log
import Mathlib.Algebra.Order.Round

/-!
# Double precision numbers

`Real` is `double` (BasicTypes.hpp:10).  The rest of the model takes the arithmetic of the code to
be exact.  Here is what the rounded model (`Verif.Model.Rounded`) needs: the numbers a `double` can
hold and rounding to a nearest one.  Simplification: exponents are not bounded, so there is no
overflow and no underflow.
-/

namespace Minimc

/-- The numbers with 53 significant binary digits (`using Real = double`, BasicTypes.hpp:10). -/
def IsDouble (y : ℝ) : Prop := ∃ m e : ℤ, |m| < 2 ^ 53 ∧ y = m * (2 : ℝ) ^ e

/-- `rnd` rounds to a nearest double (the result of `+`, `-`, `*`, `/` and `std::sqrt` on `Real`,
BasicTypes.hpp:10); nothing is said about ties. -/
structure Nearest (rnd : ℝ → ℝ) : Prop where
  isDouble : ∀ x, IsDouble (rnd x)
  nearest : ∀ x y, IsDouble y → |rnd x - x| ≤ |y - x|

open Classical in
/-- The nearest integer, the even one of two (IEEE 754 rounding, the default for `Real`,
BasicTypes.hpp:10). -/
noncomputable def nearestEven (y : ℝ) : ℤ :=
  if y - ⌊y⌋ < 1 / 2 then ⌊y⌋
  else if 1 / 2 < y - ⌊y⌋ then ⌊y⌋ + 1
  else if ⌊y⌋ % 2 = 0 then ⌊y⌋ else ⌊y⌋ + 1

/-- The exponent of the last of 53 binary digits of a number (`Real`, BasicTypes.hpp:10). -/
noncomputable def lastPlace (x : ℝ) : ℤ := Int.log 2 |x| - 52

/-- Rounding to the nearest double, ties to even (`Real`, BasicTypes.hpp:10). -/
noncomputable def double (x : ℝ) : ℝ :=
  nearestEven (x / (2 : ℝ) ^ lastPlace x) * (2 : ℝ) ^ lastPlace x

end Minimc
