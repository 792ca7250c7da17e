import Verif.Model.Point

/-! # Scalar fields (ScalarField.hpp, ScalarField.cpp) -/

namespace Minimc

/-- `ConstantField` and `LinearField` (ScalarField.hpp:36-70) with the members of the
base class (`upper_bound`, `lower_bound`, ScalarField.hpp:27-32). -/
inductive ScalarField where
  | constant (c : ℝ)
  | linear (upper lower : ℝ) (g : Point) (b : ℝ)

namespace ScalarField

/-- `upper_bound` (ScalarField.cpp:28-29): equal to the constant for a `ConstantField`
(ScalarField.cpp:35-41), user-supplied for a `LinearField` (ScalarField.cpp:49-52). -/
def upperBound : ScalarField → ℝ
  | .constant c => c
  | .linear u _ _ _ => u

/-- `lower_bound` (ScalarField.cpp:28-29, 35-41, 49-52). -/
def lowerBound : ScalarField → ℝ
  | .constant c => c
  | .linear _ l _ _ => l

open Classical in
/-- `IsConstant` (ScalarField.cpp:43 and 56); point equality is component-wise
(Point.cpp:72-74). -/
noncomputable def isConstant : ScalarField → Bool
  | .constant _ => true
  | .linear _ _ g _ => decide (g.x = 0 ∧ g.y = 0 ∧ g.z = 0)

/-- `at` (ScalarField.cpp:45 and 58). -/
noncomputable def at' : ScalarField → Point → ℝ
  | .constant c, _ => c
  | .linear _ _ g b, p => g.dot p + b

end ScalarField
end Minimc
