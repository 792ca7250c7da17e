import Verif.Model.Basic

/-! # Search by bisection (`std::upper_bound`) -/

namespace Minimc

/-- `std::upper_bound` (called on Bins.cpp:161, ThermalScattering.cpp:118, 129, 190, 231, 276, 294,
309, 349, 383, 400 and 432) as libstdc++ implements it: `len` entries from `first` on are bisected;
`after i` says that the value belongs before entry `i`. -/
def upperBound (after : ℕ → Bool) (first len : ℕ) : ℕ :=
  if len = 0 then first
  else if after (first + len / 2) then upperBound after first (len / 2)
  else upperBound after (first + len / 2 + 1) (len - len / 2 - 1)
termination_by len

open Classical in
/-- `std::distance(first, std::upper_bound(first, last, x))` for a vector of numbers
(Bins.cpp:159-161, ThermalScattering.cpp:117-118, 128-129, 189-190, 230-231, 275-276, 308-309,
348-349, 431-432). -/
noncomputable def upperIdx (l : List ℝ) (x : ℝ) : ℕ :=
  upperBound (fun i => decide (x < l.getD i 0)) 0 l.length

/-- The same for `std::vector<size_t>` (ThermalScattering.cpp:292-295, 381-385). -/
def upperIdxNat (l : List ℕ) (x : ℕ) : ℕ :=
  upperBound (fun i => decide (x < l.getD i 0)) 0 l.length

end Minimc
