import Verif.Spec.Table

/-! # Distributions given by a histogram density -/

namespace Minimc.Spec

/-- Corner points of a piecewise linear cumulative distribution function: cumulative
probability and value.  `n` inner points `(f k, v k)` between `(0, lo)` and `(1, hi)`. -/
def knot (n : ℕ) (f v : ℕ → ℝ) (lo hi : ℝ) : ℕ → ℝ × ℝ
  | 0 => (0, lo)
  | k + 1 => if k < n then (f k, v k) else (1, hi)

/-- Both coordinates increase strictly from each of the `n + 2` corner points to the next. -/
def Increasing (n : ℕ) (K : ℕ → ℝ × ℝ) : Prop :=
  ∀ k ≤ n, (K k).1 < (K (k + 1)).1 ∧ (K k).2 < (K (k + 1)).2

/-- The value `a` has cumulative probability `F`: the point is on the polygon. -/
def OnCurve (n : ℕ) (K : ℕ → ℝ × ℝ) (F a : ℝ) : Prop :=
  ∃ k ≤ n, (K k).1 ≤ F ∧ F < (K (k + 1)).1 ∧ a = line (K k) (K (k + 1)) F

end Minimc.Spec
