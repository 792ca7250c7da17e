import Mathlib.Data.Real.Basic
import Mathlib.Order.WithBot
import Mathlib.Tactic

/-!
# Outcomes

Functions of the C++ code either return a value or end in one of the ways
listed in `Err`.  Undefined behaviour, failed assertions, exceptions that leave
a `noexcept` function and results that are not a number are kept apart.
-/

namespace Minimc

/-- Ways in which a C++ function may fail to return an ordinary value.
Models `std::runtime_error` and `std::out_of_range` (thrown throughout
`/repo/src`), `std::bad_variant_access` and `std::bad_optional_access`
(`std::get<Group>` and `value()`, Multigroup.cpp:254; both are `badVariant`),
`std::terminate` (an exception leaving a `noexcept` function such as
TransportMethod.hpp:42-43), `assert(false)` (Particle.cpp:123, Multigroup.cpp:72),
undefined behaviour, and a NaN result of a floating point operation.  `fuel` is not an
outcome of the program: it says that a loop or recursion of the code (for example
`while (p.IsAlive())`, TransportMethod.cpp:56, or the tail call on Continuous.cpp:69) did
not finish within the number of rounds allowed to the model; theorems hold for every such
number. -/
inductive Err where
  | runtimeError
  | outOfRange
  | badVariant
  | terminate
  | assertFail
  | ub
  | nan
  | fuel
deriving DecidableEq, Repr

/-- Result of a C++ function: a value or one of the outcomes in `Err`. -/
abbrev Res (α : Type _) := Except Err α

/-- Effect of `noexcept` on a function body: an exception that would leave the
function calls `std::terminate` (e.g. CellDeltaTracking::Transport,
TransportMethod.cpp:89-122). -/
def noexcept {α : Type _} : Res α → Res α
  | .error .runtimeError => .error .terminate
  | .error .outOfRange => .error .terminate
  | .error .badVariant => .error .terminate
  | r => r

/-- `std::vector::at` (used e.g. in Scorable.cpp:33, Multigroup.cpp:97):
bounds-checked access. -/
def vecAt {α : Type _} (l : List α) (i : ℕ) : Res α :=
  match l[i]? with
  | some a => .ok a
  | none => .error .outOfRange

/-- `std::map::emplace` on a map whose keys are pointers (Material.cpp:79-80, Cell.cpp:83), kept
in the order of addresses: an existing entry is not changed. -/
def emplaceByAddr {κ β : Type} (addr : κ → ℕ) (k : κ) (v : β) : List (κ × β) → List (κ × β)
  | [] => [(k, v)]
  | (k', v') :: m =>
    if addr k < addr k' then (k, v) :: (k', v') :: m
    else if addr k = addr k' then (k', v') :: m
    else (k', v') :: emplaceByAddr addr k v m

end Minimc
