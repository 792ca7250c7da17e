import Verif.Model.ContinuousMap
import Verif.Model.Rounded

/-!
# Tables and flights with rounded arithmetic

As in `Verif.Model.Rounded`, every operation on doubles is followed by rounding.
-/

namespace Minimc
namespace Rounded

open Classical

variable (rnd : ℝ → ℝ)

/-- `ContinuousMap::at` (ContinuousMap.hpp:21-39), see `ContinuousMap.at'`. -/
noncomputable def tableAt (m : ContinuousMap) (k : ℝ) : Res ℝ :=
  match (m.takeWhile (fun e => decide (e.1 ≤ k))).getLast?,
        (m.dropWhile (fun e => decide (e.1 ≤ k))).head? with
  | some (_, v), none => .ok v
  | none, some (_, v) => .ok v
  | some (kLo, vLo), some (kHi, vHi) =>
    .ok (rnd (vLo + rnd (rnd (rnd (vHi - vLo) / rnd (kHi - kLo)) * rnd (k - kLo))))
  | none, none => .error .ub

/-- `std::exponential_distribution{lam}(rng)` (TransportMethod.cpp:57-59, 93-95), see `Rng.exponential`: the
negative logarithm of one minus a uniform number, divided by the rate.  `logarithm` is that of the
mathematical library. -/
noncomputable def exponential (logarithm : ℝ → ℝ) (lam : ℝ) (g : ℕ) : WithTop ℝ × ℕ :=
  (if lam = 0 then ⊤ else ((rnd (-logarithm (rnd (1 - (canonical rnd g).1)) / lam) : ℝ) : WithTop ℝ),
    (canonical rnd g).2)

end Rounded
end Minimc
