import Verif.Model.ContinuousMap

/-! # Specification of interpolated tables and of row-major data sets -/

namespace Minimc.Spec

/-- Keys strictly increasing: the order in which a `std::map` holds its entries. -/
def Sorted (m : List (ℝ × ℝ)) : Prop := m.Pairwise (fun a b => a.1 < b.1)

/-- The entries `a` and `b` are neighbours in the table. -/
def Adjacent (m : List (ℝ × ℝ)) (a b : ℝ × ℝ) : Prop := ∃ l r, m = l ++ a :: b :: r

/-- The point on the straight line through two points of the plane. -/
noncomputable def line (a b : ℝ × ℝ) (k : ℝ) : ℝ :=
  (a.2 * (b.1 - k) + b.2 * (k - a.1)) / (b.1 - a.1)

/-- Row-major offset of an index tuple in an array of the given shape (Horner scheme). -/
def offset : List ℕ → List ℕ → ℕ
  | _ :: shape, i :: idx => i * shape.prod + offset shape idx
  | _, _ => 0

/-- Every index is below the length of its axis. -/
def InRange (shape idx : List ℕ) : Prop := List.Forall₂ (fun n i => i < n) shape idx

end Minimc.Spec
