import Verif.Model.Double
import Verif.Model.Multigroup
import Verif.Model.Transport

/-!
# The program with rounded arithmetic

The functions of the model in which rounding decides something, written again with every operation
on doubles followed by rounding (`rnd`).  The compiler is taken not to fuse or reorder operations.
With exact arithmetic (`rnd = id`) each is the function of the same name elsewhere in the model
(`Verif.Props.RoundedExact`).  Cross sections are parameters: whatever doubles the tables give.
-/

namespace Minimc
namespace Rounded

open Classical

variable (rnd : ℝ → ℝ)

/-! ### Random numbers -/

/-- `std::generate_canonical<double, 53>` of libstdc++ (e.g. Multigroup.cpp:51), see
`Rng.canonical`: `sum` and `tmp` start at 0 and 1; a result that rounds to 1 is replaced by the
largest double below 1. -/
noncomputable def canonical (g : ℕ) : ℝ × ℕ :=
  let g₁ := Rng.next g
  let g₂ := Rng.next g₁
  let sum₁ := rnd (0 + rnd (((g₁ : ℝ) - 1) * 1))
  let tmp₁ := rnd (1 * Rng.range)
  let sum₂ := rnd (sum₁ + rnd (((g₂ : ℝ) - 1) * tmp₁))
  let tmp₂ := rnd (tmp₁ * Rng.range)
  let ret := rnd (sum₂ / tmp₂)
  (if ret ≥ 1 then 1 - 1 / 2 ^ 53 else ret, g₂)

/-! ### Sums and selections -/

/-- The loop of `selectLoop` (Particle.cpp:115-120, Multigroup.cpp:53-69, 255-262, 279-285,
Continuous.cpp:61-67). -/
noncomputable def selectLoop {α : Type _} (f : α → Res ℝ) (threshold : ℝ) :
    ℝ → List α → Res (Option α)
  | _, [] => .ok none
  | accumulated, x :: xs => do
    let v ← f x
    if rnd (accumulated + v) > threshold then .ok (some x)
    else selectLoop f threshold (rnd (accumulated + v)) xs

/-- `std::accumulate` (e.g. Material.cpp:44-49). -/
noncomputable def sumLoop {α : Type _} (f : α → Res ℝ) : ℝ → List α → Res ℝ
  | accumulated, [] => .ok accumulated
  | accumulated, x :: xs => do
    let v ← f x
    sumLoop f (rnd (accumulated + v)) xs

/-- `Material::GetMicroscopicTotal` (Material.cpp:52-61); `total` stands for
`Nuclide::GetTotal`. -/
noncomputable def getMicroscopicTotal (total : Nuclide → Particle → Res ℝ) (m : Material)
    (p : Particle) : Res ℝ := noexcept <|
  sumLoop rnd (fun e => do .ok (rnd (e.2 * (← total e.1 p)))) 0 m.afracs

/-- The loop of `Particle::SampleNuclide` (Particle.cpp:114-120). -/
noncomputable def selectNuclide (total : Nuclide → Particle → Res ℝ) (m : Material)
    (p : Particle) (threshold : ℝ) : Res (Option (Nuclide × ℝ)) :=
  selectLoop rnd (fun e => do .ok (rnd (e.2 * (← total e.1 p)))) threshold 0 m.afracs

/-- `Particle::Sample` (Particle.cpp:106-108). -/
noncomputable def sample (p : Particle) : ℝ × Particle :=
  ((canonical rnd p.rng).1, { p with rng := (canonical rnd p.rng).2 })

/-- `Particle::SampleNuclide` (Particle.cpp:110-124). -/
noncomputable def sampleNuclide (total : Nuclide → Particle → Res ℝ) (p : Particle) :
    Res (Nuclide × Particle) := noexcept do
  let m ← p.materialOrUB
  let t ← getMicroscopicTotal rnd total m p
  let (u, p') := sample rnd p
  match ← selectNuclide rnd total m p' (rnd (t * u)) with
  | some e => .ok (e.1, p')
  | none => .error .assertFail

/-! ### Multigroup data -/

/-- `std::accumulate(begin, end, 0.)` over a column (Multigroup.cpp:174-176, 206-207). -/
noncomputable def columnSum (column : List ℝ) : ℝ := column.foldl (fun a b => rnd (a + b)) 0

/-- One round of the normalisation (Multigroup.cpp:173-185). -/
noncomputable def normalizeColumn (column : List ℝ) : List ℝ :=
  if columnSum rnd column = 0 then column
  else column.map (fun e => rnd (e / columnSum rnd column))

/-- `CreateTotalXS` (Multigroup.cpp:231-243). -/
noncomputable def createTotalXS (G : ℕ) (reactions : List (Reaction × List ℝ)) : List ℝ :=
  reactions.foldl
    (fun accumulated r => List.zipWith (fun a b => rnd (a + b)) accumulated r.2)
    (List.replicate G 0)

/-- The reaction selected by `Multigroup::Interact` (Multigroup.cpp:50-54, 69-72) in group `g`,
with the number drawn from the generator. -/
noncomputable def sampleReaction (total : List ℝ) (reactions : List (Reaction × List ℝ))
    (g : ℕ) (rng : ℕ) : Res Reaction := do
  let t ← Multigroup.oneAt total g
  match ← selectLoop rnd (fun r => Multigroup.oneAt r.2 g) (rnd ((canonical rnd rng).1 * t)) 0
      reactions with
  | some r => .ok r.1
  | none => .error .assertFail

/-- The outgoing group selected by `Multigroup::Scatter` (Multigroup.cpp:251-264) and by the loop
of `Multigroup::Fission` (Multigroup.cpp:276-285), which goes on without a group where this has an
assertion. -/
noncomputable def sampleGroup (maxGroup : ℕ) (probs : List ℝ) (rng : ℕ) : Res ℕ := do
  match ← selectLoop rnd (fun g => Multigroup.oneAt probs g) (canonical rnd rng).1 0
      (List.range' 1 maxGroup) with
  | some g => .ok g
  | none => .error .assertFail

/-- The number of fission neutrons (Multigroup.cpp:271-273, ContinuousReaction.cpp:255-257). -/
noncomputable def fissionYield (nu : ℝ) (rng : ℕ) : Res ℕ :=
  toSize (rnd (nu + (canonical rnd rng).1))

/-! ### Bins -/

/-- The width computed by the constructors of `LinspaceBins` and `LogspaceBins` (Bins.cpp:68,
108). -/
noncomputable def binWidth (nBins : ℕ) (lower upper : ℝ) : ℝ :=
  rnd (rnd (upper - lower) / ((nBins - 2 : ℕ) : ℝ))

/-- `LinspaceBins::GetIndex` (Bins.cpp:73-81) and `LogspaceBins::GetIndex` (Bins.cpp:114-122) on
the computed logarithm. -/
noncomputable def spaceIndex (n : ℕ) (lower upper width v : ℝ) : ℕ :=
  if v < lower then 0
  else if v ≥ upper then n - 1
  else ⌊rnd (rnd (rnd (v - lower) / width) + 1)⌋₊

/-! ### Points and surfaces -/

/-- `operator+=` (Point.cpp:58-63). -/
noncomputable def add (p q : Point) : Point := ⟨rnd (p.x + q.x), rnd (p.y + q.y), rnd (p.z + q.z)⟩

/-- `operator-` (Point.cpp:16-18). -/
noncomputable def sub (p q : Point) : Point := ⟨rnd (p.x - q.x), rnd (p.y - q.y), rnd (p.z - q.z)⟩

/-- `operator*` (Point.cpp:20-26). -/
noncomputable def smul (p : Point) (s : ℝ) : Point := ⟨rnd (p.x * s), rnd (p.y * s), rnd (p.z * s)⟩

/-- `Point::Dot` (Point.cpp:49-51). -/
noncomputable def dot (p q : Point) : ℝ :=
  rnd (rnd (rnd (p.x * q.x) + rnd (p.y * q.y)) + rnd (p.z * q.z))

/-- `CSGSurface::SolveQuadratic` (CSGSurface.cpp:71-97).  If `a` is zero and `b` is not, the program
divides by zero and gets minus infinity for the lesser or plus infinity for the greater solution; here
both are zero.  Both lead to the same result. -/
noncomputable def solveQuadratic (a b c : ℝ) : WithTop ℝ :=
  let discriminant := rnd (rnd (b * b) - rnd (rnd (4 * a) * c))
  if discriminant ≤ 0 then ⊤
  else
    let root := rnd (Real.sqrt discriminant)
    let lesser :=
      if b > 0 then rnd (rnd (-b - root) / rnd (2 * a)) else rnd (rnd (2 * c) / rnd (-b + root))
    let greater :=
      if b > 0 then rnd (rnd (2 * c) / rnd (-b - root)) else rnd (rnd (-b + root) / rnd (2 * a))
    if lesser > 0 then (lesser : WithTop ℝ)
    else if greater > 0 then (greater : WithTop ℝ)
    else ⊤

/-- Virtual `CSGSurface::Distance` (CSGSurface.cpp:107-111, 125-134, 148-162). -/
noncomputable def distance (s : Surface) (origin : Point) (direction : Direction) : WithTop ℝ :=
  match s with
  | .sphere center radius =>
    let oc := sub rnd origin center
    solveQuadratic rnd 1 (rnd (2 * dot rnd oc direction))
      (rnd (dot rnd oc oc - rnd (radius * radius)))
  | .planeX c =>
    let vx := rnd (c - dot rnd origin ⟨1, 0, 0⟩)
    let dx := dot rnd direction ⟨1, 0, 0⟩
    let d := rnd (vx / dx)
    if d > 0 then (d : WithTop ℝ) else ⊤
  | .cylinderX radius =>
    let w : Point := ⟨1, 0, 0⟩
    let pp := dot rnd origin origin
    let pw := dot rnd origin w
    let dw := dot rnd direction w
    let pd := dot rnd origin direction
    solveQuadratic rnd (rnd (1 - rnd (dw * dw))) (rnd (2 * rnd (pd - rnd (pw * dw))))
      (rnd (rnd (pp - rnd (pw * pw)) - rnd (radius * radius)))

/-- Virtual `CSGSurface::Contains` (CSGSurface.cpp:113-116, 136-138, 164-174).  The square
root of a negative number is not a number, and nothing is smaller. -/
noncomputable def contains (s : Surface) (p : Point) : Bool :=
  match s with
  | .sphere center radius =>
    let pc := sub rnd p center
    decide (dot rnd pc pc < rnd (radius * radius))
  | .planeX c => decide (dot rnd p ⟨1, 0, 0⟩ < c)
  | .cylinderX radius =>
    let w : Point := ⟨1, 0, 0⟩
    let pp := dot rnd p p
    let pw := dot rnd p w
    let s := rnd (pp - rnd (pw * pw))
    decide (0 ≤ s ∧ rnd (Real.sqrt s) < rnd (radius * radius))

/-! ### Cells and flights -/

/-- `Cell::Contains` (Cell.cpp:27-35). -/
noncomputable def cellContains (c : Cell) (p : Point) : Bool :=
  c.surfaceSenses.all (fun s => contains rnd s.1.shape p == s.2)

/-- `std::min_element` (Cell.cpp:39-43). -/
noncomputable def nearestFrom (p : Point) (d : Direction) :
    SurfaceObj → List (SurfaceObj × Bool) → SurfaceObj
  | best, [] => best
  | best, s :: ss =>
    if distance rnd s.1.shape p d < distance rnd best.shape p d then nearestFrom p d s.1 ss
    else nearestFrom p d best ss

/-- `Cell::NearestSurface` (Cell.cpp:37-51). -/
noncomputable def nearestSurface (c : Cell) (p : Point) (d : Direction) :
    Res (SurfaceObj × WithTop ℝ) :=
  match c.surfaceSenses with
  | [] => .error .runtimeError
  | s :: ss =>
    let nearest := nearestFrom rnd p d s.1 ss
    .ok (nearest, distance rnd nearest.shape p d)

/-- `World::FindCellContaining` (World.cpp:26-37). -/
noncomputable def findCellContaining (w : World) (p : Point) : Res Cell :=
  match w.cells.find? (fun c => cellContains rnd c p) with
  | some c => .ok c
  | none => .error .runtimeError

/-- `Particle::Stream` (Particle.cpp:46-53) without perturbations. -/
noncomputable def stream (p : Particle) : WithTop ℝ → Res Particle
  | ⊤ => .error .nan
  | (d : ℝ) => .ok { p with position := add rnd p.position (smul rnd p.direction d) }

/-- `distance_to_surface_crossing + constants::nudge` (TransportMethod.cpp:68, 100). -/
noncomputable def nudged : WithTop ℝ → WithTop ℝ
  | ⊤ => ⊤
  | (d : ℝ) => (rnd (d + nudge) : ℝ)

/-- The surface crossing branch (TransportMethod.cpp:68-72, 100-104). -/
noncomputable def crossSurface (w : World) (p : Particle) (surface : SurfaceObj)
    (d : WithTop ℝ) : Res Particle := do
  let p ← stream rnd p (nudged rnd d)
  let c ← findCellContaining rnd w p.position
  .ok { p with
    cell := some c
    currentSurface := some surface
    event := if c.material.isSome then .surfaceCross else .leak }

/-- One round of the loop of `SurfaceTracking::Transport` (TransportMethod.cpp:60-73) up to a
collision, with the sampled distance `dc` to the next collision: whether the particle collides, and
its state. -/
noncomputable def flight (w : World) (p : Particle) (dc : WithTop ℝ) : Res (Bool × Particle) := do
  let c ← p.getCell
  let (surface, ds) ← nearestSurface rnd c p.position p.direction
  if dc < ds then do
    let p ← stream rnd p dc
    .ok (true, p)
  else do
    let p ← crossSurface rnd w p surface ds
    .ok (false, p)

end Rounded
end Minimc
