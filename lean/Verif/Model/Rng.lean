import Verif.Model.Basic
import Mathlib.Analysis.SpecialFunctions.Log.Basic

/-!
# Random numbers

`RNG` is `std::minstd_rand` (BasicTypes.hpp:27), a linear congruential engine
with multiplier 48271, increment 0 and modulus 2^31-1.  The distributions follow
libstdc++ (`bits/random.tcc`).
-/

namespace Minimc

/-- State of the engine, `std::minstd_rand` (BasicTypes.hpp:27). -/
abbrev Rng := ℕ

namespace Rng

/-- Multiplier of `std::minstd_rand` (BasicTypes.hpp:27). -/
def mult : ℕ := 48271

/-- Modulus of `std::minstd_rand` (BasicTypes.hpp:27). -/
def modulus : ℕ := 2147483647

/-- Construction from a seed, `rng{seed}` (Source.cpp:145, Particle.cpp:40):
`linear_congruential_engine::seed` replaces a seed that is 0 modulo the modulus
by 1, since the increment is 0. -/
def ofSeed (s : ℕ) : ℕ := if s % modulus = 0 then 1 else s % modulus

/-- One call `rng()`: the new state, which is also the returned number
(e.g. Particle.cpp:99, Source.cpp:150). -/
def next (g : ℕ) : ℕ := mult * g % modulus

/-- `max() - min() + 1` for `std::minstd_rand` (min is 1, max is modulus - 1). -/
def range : ℕ := 2147483646

/-- `std::generate_canonical<double, 53>` of libstdc++ on this engine: two draws
combined with weights 1 and `range`, divided by `range ^ 2`.  Simplified: exact
arithmetic, so that the final "if the result rounds to 1 use the largest double
below 1" of libstdc++ never applies.  Used by every
`std::uniform_real_distribution{}(rng)`, e.g. Multigroup.cpp:51. -/
noncomputable def canonical (g : ℕ) : ℝ × ℕ :=
  let g₁ := next g
  let g₂ := next g₁
  ((((g₁ : ℝ) - 1) + ((g₂ : ℝ) - 1) * range) / ((range : ℝ) * range), g₂)

/-- `std::uniform_real_distribution{a, b}(rng)`, e.g. Point.cpp:91. -/
noncomputable def uniformReal (a b : ℝ) (g : ℕ) : ℝ × ℕ :=
  ((canonical g).1 * (b - a) + a, (canonical g).2)

/-- The value of an exponential variate with rate `lam` obtained from the uniform
number `u`: `-log(1 - u) / lam` (libstdc++ `exponential_distribution`); a zero
rate divides a positive number by zero and gives positive infinity. -/
noncomputable def exponentialOf (lam u : ℝ) : WithTop ℝ :=
  if lam = 0 then ⊤ else ((-Real.log (1 - u) / lam : ℝ) : WithTop ℝ)

/-- `std::exponential_distribution{lam}(rng)` (TransportMethod.cpp:57-59, 93-95). -/
noncomputable def exponential (lam : ℝ) (g : ℕ) : WithTop ℝ × ℕ :=
  (exponentialOf lam (canonical g).1, (canonical g).2)

open Classical in
/-- `std::bernoulli_distribution{p}(rng)` (TransportMethod.cpp:106-108): true when a
uniform number is smaller than `p`. -/
noncomputable def bernoulli (p : ℝ) (g : ℕ) : Bool × ℕ :=
  (decide ((canonical g).1 < p), (canonical g).2)

end Rng
end Minimc
