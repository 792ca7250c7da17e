import Verif.Model.Point
import Verif.Model.Search
import Mathlib.Algebra.Order.Floor.Defs
import Mathlib.Algebra.Order.Floor.Semiring
import Mathlib.Analysis.SpecialFunctions.Pow.Real

/-! # Bins (Bins.hpp, Bins.cpp) -/

namespace Minimc

open Classical

/-- The four concrete classes derived from `Bins` (Bins.hpp:44-128) with their members. -/
inductive Bins where
  | none
  | linspace (nBins : ℕ) (lower upper width : ℝ)
  | logspace (nBins : ℕ) (base lower upper width : ℝ)
  | boundaries (bs : List ℝ)

/-- A double: finite, infinite or not a number.  Needed for `log` of zero and of negative
numbers in `LogspaceBins::GetIndex` (Bins.cpp:113). -/
inductive XReal where
  | nan
  | negInf
  | posInf
  | fin (x : ℝ)

namespace Bins

/-- `LinspaceBins` constructor (Bins.cpp:57-68); `bins`, `min`, `max` are the attributes.
The schema requires `bins ≥ 1`. -/
noncomputable def createLinspace (bins : ℕ) (min max : ℝ) : Res Bins :=
  if max ≤ min then .error .runtimeError
  else
    let nBins := bins + 2
    .ok (.linspace nBins min max ((max - min) / ((nBins - 2 : ℕ) : ℝ)))

/-- `LogspaceBins` constructor (Bins.cpp:96-108); the default base 10 is filled in by the
caller. -/
noncomputable def createLogspace (bins : ℕ) (base min max : ℝ) : Res Bins :=
  if max ≤ min then .error .runtimeError
  else
    let nBins := bins + 2
    .ok (.logspace nBins base min max ((max - min) / ((nBins - 2 : ℕ) : ℝ)))

/-- The check loop of the `BoundaryBins` constructor (Bins.cpp:142-152); `prev` is `none`
while `prev_boundary` is negative infinity. -/
noncomputable def boundariesIncreasing : Option ℝ → List ℝ → Bool
  | _, [] => true
  | Option.none, b :: bs => boundariesIncreasing (some b) bs
  | some p, b :: bs => if b ≤ p then false else boundariesIncreasing (some b) bs

/-- `BoundaryBins` constructor (Bins.cpp:138-154). -/
noncomputable def createBoundaries (bs : List ℝ) : Res Bins :=
  if boundariesIncreasing Option.none bs then .ok (.boundaries bs) else .error .runtimeError

/-- `size` (Bins.cpp:47, 70, 110, 156). -/
def size : Bins → ℕ
  | .none => 1
  | .linspace n _ _ _ => n
  | .logspace n _ _ _ _ => n
  | .boundaries bs => bs.length + 1

/-- Shared arithmetic of `LinspaceBins::GetIndex` (Bins.cpp:73-81) and
`LogspaceBins::GetIndex` (Bins.cpp:114-122) on a finite value; the conversion of a
non-negative double to `size_t` truncates. -/
noncomputable def spaceIndex (n : ℕ) (lower upper width v : ℝ) : ℕ :=
  if v < lower then 0
  else if v ≥ upper then n - 1
  else ⌊(v - lower) / width + 1⌋₊

/-- `std::log(v) / std::log(base)` (Bins.cpp:113) in IEEE arithmetic (exact on finite
operands): the logarithm of zero is negative infinity, of a negative number not a
number. -/
noncomputable def logBase (base v : ℝ) : XReal :=
  if v < 0 ∨ base < 0 then .nan
  else if base = 0 then (if v = 0 then .nan else .fin 0)
  else if base = 1 then (if v = 1 then .nan else if v < 1 then .negInf else .posInf)
  else if v = 0 then (if base > 1 then .negInf else .posInf)
  else .fin (Real.log v / Real.log base)

/-- `GetIndex` (Bins.cpp:49, 72-82, 112-123, 158-162).  Converting not-a-number to
`size_t` is undefined behaviour. -/
noncomputable def getIndex : Bins → ℝ → Res ℕ
  | .none, _ => .ok 0
  | .linspace n lower upper width, v => .ok (spaceIndex n lower upper width v)
  | .logspace n base lower upper width, v =>
    match logBase base v with
    | .nan => .error .ub
    | .negInf => .ok 0
    | .posInf => .ok (n - 1)
    | .fin x => .ok (spaceIndex n lower upper width x)
  | .boundaries bs, v => .ok (upperIdx bs v)

/-- The numbers printed by `to_string` (Bins.cpp:51, 84-90, 125-132, 164-170), without the
text formatting; `NoBins` prints no boundary. -/
noncomputable def printed : Bins → List ℝ
  | .none => []
  | .linspace n lower _ width => (List.range (n - 1)).map (fun i : ℕ => lower + (i : ℝ) * width)
  | .logspace n base lower _ width =>
    (List.range (n - 1)).map (fun i : ℕ => base ^ (lower + (i : ℝ) * width))
  | .boundaries bs => bs

end Bins

/-- `ParticleBins` (Bins.hpp:132-175): optional reference direction, cosine bins, energy
bins, and the two strides. -/
structure ParticleBins where
  direction : Option Direction
  cosine : Bins
  energy : Bins
  strides : ℕ × ℕ

namespace ParticleBins

/-- `ComputeStrides`, base case (Bins.hpp:151-155), the only one instantiated. -/
def computeStrides (inner : Bins) : ℕ × ℕ := (inner.size, 1)

/-- `ParticleBins` constructor (Bins.cpp:176-190) from already created bins.  The
constructor is `noexcept`, so a rejected bin specification terminates the program. -/
def create (direction : Option Direction) (cosine energy : Res Bins) : Res ParticleBins :=
  noexcept do
    let c ← cosine
    let e ← energy
    .ok ⟨direction, c, e, computeStrides e⟩

/-- `ParticleBins::size` (Bins.cpp:192-194). -/
def size (b : ParticleBins) : ℕ := b.cosine.size * b.strides.1

/-- `ParticleBins::GetIndex` (Bins.cpp:196-204) from the particle's direction and its
energy as a real number (`VisitEnergy`, Bins.hpp:146-149). -/
noncomputable def getIndex (b : ParticleBins) (dir : Direction) (energy : ℝ) : Res ℕ := do
  let c ← match b.direction with
    | some ref => b.cosine.getIndex (ref.dot dir)
    | Option.none => .ok 0
  let e ← b.energy.getIndex energy
  .ok (b.strides.1 * c + e)

end ParticleBins
end Minimc
