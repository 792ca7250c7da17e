import Verif.Spec.Table
import Verif.Model.Thermal
import Mathlib.Algebra.BigOperators.Group.Finset.Basic

/-! # Specification of tabulated thermal scattering data -/

namespace Minimc.Spec

/-- The data set has the given axes and stores `f`, the last index changing fastest. -/
def Holds (ds : DataSet) (axes : List (List ℝ)) (f : List ℕ → ℝ) : Prop :=
  ds.axes = axes ∧ ∀ idx, InRange (axes.map List.length) idx →
    ds.values[offset (axes.map List.length) idx]? = some (f idx)

/-- Weight of the upper of two neighbours in linear interpolation. -/
noncomputable def weight (lo hi x : ℝ) : ℝ := (x - lo) / (hi - lo)

/-- Weighted mean of two values. -/
noncomputable def mix (w a b : ℝ) : ℝ := (1 - w) * a + w * b

/-- The thermal data has total cross section `X i j` at incident energy `es[i]` and temperature
`ts[j]`: three data sets hold a low-rank expansion of it. -/
def TotalTable (s : ThermalScattering) (es ts : List ℝ) (X : ℕ → ℕ → ℝ) : Prop :=
  es.Pairwise (· < ·) ∧ ts.Pairwise (· < ·) ∧ ts ≠ [] ∧
  ∃ (o oE oT : List ℝ) (S : ℕ → ℝ) (E T : ℕ → ℕ → ℝ), oE.length = o.length ∧
    oT.length = o.length ∧
    Holds s.scatterXsS [o] (fun idx => S (idx[0]?.getD 0)) ∧
    Holds s.scatterXsE [es, oE] (fun idx => E (idx[0]?.getD 0) (idx[1]?.getD 0)) ∧
    Holds s.scatterXsT [ts, oT] (fun idx => T (idx[0]?.getD 0) (idx[1]?.getD 0)) ∧
    ∀ i j, X i j = ∑ k ∈ Finset.range o.length, S k * E i k * T j k

/-- A partition has value `X f i j` at cumulative probability `fs[f]`, row `rows[i]` and
temperature `ts[j]`. -/
def PartitionTable (P : Partition) (fs rows ts : List ℝ) (X : ℕ → ℕ → ℕ → ℝ) : Prop :=
  ts.Pairwise (· < ·) ∧
  ∃ (o oC oM : List ℝ) (S : ℕ → ℝ) (C : ℕ → ℕ → ℝ) (M : ℕ → ℕ → ℕ → ℝ),
    oC.length = o.length ∧ oM.length = o.length ∧
    Holds P.singularValues [o] (fun idx => S (idx[0]?.getD 0)) ∧
    Holds P.cdfModes [fs, oC] (fun idx => C (idx[0]?.getD 0) (idx[1]?.getD 0)) ∧
    Holds P.modes [rows, ts, oM]
      (fun idx => M (idx[0]?.getD 0) (idx[1]?.getD 0) (idx[2]?.getD 0)) ∧
    ∀ f i j, X f i j = ∑ k ∈ Finset.range o.length, S k * C f k * M i j k

end Minimc.Spec
