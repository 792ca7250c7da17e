import Verif.Model.Basic

/-! # Interpolated tables (ContinuousMap.hpp) and data sets (HDF5DataSet.hpp) -/

namespace Minimc

open Classical

/-- `ContinuousMap<Real, Real>` (ContinuousMap.hpp:13-63): the entries of the `std::map` in
key order. -/
abbrev ContinuousMap := List (ℝ × ℝ)

namespace ContinuousMap

/-- `elements[k] = v` on a `std::map` (ContinuousMap.hpp:58): overwrite or insert in key
order. -/
noncomputable def set (k v : ℝ) : ContinuousMap → ContinuousMap
  | [] => [(k, v)]
  | (k', v') :: m =>
    if k < k' then (k, v) :: (k', v') :: m
    else if k = k' then (k, v) :: m
    else (k', v') :: set k v m

/-- `ContinuousMap::at` (ContinuousMap.hpp:21-39), base case.  `upper_bound(k)` splits the
entries into those with key at most `k` and the rest.  On an empty map the code
dereferences `std::prev(end())`: undefined behaviour.  The nested case (lines 40-55) is
never instantiated. -/
noncomputable def at' (m : ContinuousMap) (k : ℝ) : Res ℝ :=
  match (m.takeWhile (fun e => decide (e.1 ≤ k))).getLast?,
        (m.dropWhile (fun e => decide (e.1 ≤ k))).head? with
  | some (_, v), none => .ok v
  | none, some (_, v) => .ok v
  | some (kLo, vLo), some (kHi, vHi) => .ok (vLo + (vHi - vLo) / (kHi - kLo) * (k - kLo))
  | none, none => .error .ub

end ContinuousMap

/-- `HDF5DataSet<D>` (HDF5DataSet.hpp:37-174) after reading: the `D` axes and the flat
values. -/
structure DataSet where
  axes : List (List ℝ)
  values : List ℝ

namespace DataSet

/-- Tail of `std::partial_sum(first, last, out, multiplies)` with running product `acc`
(HDF5DataSet.hpp:145-146). -/
def partialProductsFrom (acc : ℕ) : List ℕ → List ℕ
  | [] => []
  | b :: l => acc * b :: partialProductsFrom (acc * b) l

/-- `std::partial_sum(first, last, out, multiplies)` (HDF5DataSet.hpp:145-146). -/
def partialProducts : List ℕ → List ℕ
  | [] => []
  | a :: l => a :: partialProductsFrom a l

/-- `ComputeAxisStrides` (HDF5DataSet.hpp:132-148): sizes of the axes after the first,
then 1, multiplied up from the last position. -/
def strides (ds : DataSet) : List ℕ :=
  (partialProducts ((ds.axes.tail.map List.length) ++ [1]).reverse).reverse

/-- `at_from_base` (HDF5DataSet.hpp:151-167).  An empty index list cannot be written in the
C++ code (`static_assert`, line 75). -/
noncomputable def atFromBase (ds : DataSet) : ℕ → ℕ → List ℕ → Res ℝ
  | _, _, [] => .error .ub
  | base, level, [index] => do
    let axis ← vecAt ds.axes level
    if index ≥ axis.length then .error .outOfRange
    else vecAt ds.values (base + index)
  | base, level, index :: i :: inner => do
    let axis ← vecAt ds.axes level
    if index ≥ axis.length then .error .outOfRange
    else
      let stride ← vecAt ds.strides level
      atFromBase ds (base + index * stride) (level + 1) (i :: inner)

/-- `HDF5DataSet::at` (HDF5DataSet.hpp:72-77). -/
noncomputable def at' (ds : DataSet) (indices : List ℕ) : Res ℝ := ds.atFromBase 0 0 indices

/-- Loop of `ToContinuousMap` for `D = 1` (HDF5DataSet.hpp:57-60), starting at `index` with
the remaining keys. -/
noncomputable def toMapLoop (ds : DataSet) : ℕ → List ℝ → ContinuousMap → Res ContinuousMap
  | _, [], result => .ok result
  | index, k :: keys, result => do
    let v ← ds.at' [index]
    toMapLoop ds (index + 1) keys (result.set k v)

/-- `ToContinuousMap` for `D = 1` (HDF5DataSet.hpp:49-63), the only instantiation used. -/
noncomputable def toContinuousMap (ds : DataSet) : Res ContinuousMap := do
  let keys ← vecAt ds.axes 0
  ds.toMapLoop 0 keys []

end DataSet
end Minimc
