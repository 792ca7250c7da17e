import Verif.Spec.Attenuation
import Verif.Spec.Rotation
import Verif.Spec.Sequence
import Mathlib.MeasureTheory.Integral.Lebesgue.Basic
import Mathlib.Analysis.SpecialFunctions.Trigonometric.Basic

/-!
# Specification: neutrons that scatter

First the walk of a neutron through the world as a game played with a sequence of numbers, then the
equation for the mean number of crossings that is known as the integral transport equation.
-/

namespace Minimc.Spec

open Classical MeasureTheory
open scoped ENNReal

/-! ### What is ahead -/

/-- The distance to the nearest surface of the cell. -/
noncomputable def ahead (c : Cell) (x : Point) (d : Direction) : WithTop ℝ :=
  (c.surfaceSenses.map fun e => e.1.shape.distance x d).foldr min ⊤

/-- The nearest surface of the cell, the first one of several. -/
noncomputable def faced (c : Cell) (x : Point) (d : Direction) : Option SurfaceObj :=
  (c.surfaceSenses.find? fun e => decide (e.1.shape.distance x d = ahead c x d)).map Prod.fst

/-- The point a little beyond the nearest surface. -/
noncomputable def beyond (c : Cell) (x : Point) (d : Direction) : Point :=
  along x d ((ahead c x d).untopD 0 + 10 / 2 ^ 52)

/-- The first cell of the world that the point is in. -/
noncomputable def cellAt (w : World) (x : Point) : Option Cell :=
  w.cells.find? fun c => decide (InCell c x)

/-- A flight reaches the nearest surface; the two methods differ if it ends exactly there. -/
def FliesTo : Method → WithTop ℝ → ℝ → Prop
  | .surfaceTracking, surface, flight => surface ≤ (flight : WithTop ℝ)
  | .cellDeltaTracking, surface, flight => surface < (flight : WithTop ℝ)

/-! ### Data -/

/-- The scattering table among the nodes, empty if there is none. -/
def scatterTable (nodes : List MgNode) : List ℝ :=
  (nodes.findSome? fun n => match n with | .scatter flat => some flat | _ => none).getD []

/-- Scatterings per unit length from group `g` to group `g'`: density times the sum, over the nuclides,
of fraction times the entry of the table. -/
noncomputable def transferRate (G : ℕ) (nodes : Nuclide → List MgNode) (m : Material) (g g' : ℕ) : ℝ :=
  m.numberDensity * (m.afracs.map fun e => e.2 * entry2 G (scatterTable (nodes e.1)) g g').sum

/-- Nothing in the world fissions. -/
def NoFission (G : ℕ) (nodes : Nuclide → List MgNode) (w : World) : Prop :=
  ∀ c ∈ w.cells, ∀ m, c.material = some m → ∀ e ∈ m.afracs, ∀ g, 1 ≤ g → g ≤ G →
    specXS G (nodes e.1) .fission g = 0

/-! ### The game -/

/-- The value for the item into whose piece the number falls, when the weights are laid end to end over
the unit interval. -/
noncomputable def byWeight (ws : List ℝ) (u : ℝ) (F : ℕ → ℝ≥0∞) : ℝ≥0∞ :=
  ∑ i ∈ Finset.range ws.length, if Selected ws (u * ws.sum) i then F i else 0

/-- A collision of a neutron of group `g`: the first number chooses the nuclide, the second the
reaction.  After a scattering the third chooses the group and the next two the direction, and the
neutron goes on with the remaining ones. -/
noncomputable def afterCollision (G : ℕ) (nodes : Nuclide → List MgNode) (m : Material) (g : ℕ)
    (next : Direction → ℕ → (ℕ → ℝ) → ℝ≥0∞) (us : ℕ → ℝ) : ℝ≥0∞ :=
  byWeight (m.afracs.map fun e => e.2 * specTotal G (nodes e.1) g) (us 0) fun i =>
    m.afracs[i]?.elim 0 fun e =>
      byWeight [specXS G (nodes e.1) .capture g, specXS G (nodes e.1) .scatter g,
          specXS G (nodes e.1) .fission g] (us 1) fun r =>
        if r = 1 then
          byWeight (colEntries G (scatterTable (nodes e.1)) g) (us 2) fun j =>
            next (directionFrom (us 3) (us 4)) (j + 1) fun k => us (k + 5)
        else 0

/-- How many numbers are drawn before those for the collision: the flight and, with delta tracking,
whether the collision is real. -/
def drawnBefore : Method → ℕ
  | .surfaceTracking => 1
  | .cellDeltaTracking => 2

/-- What a neutron scores in its first rounds, if a crossing of a surface scores `hit`.  In each round
the first number gives the length of the flight, which ends with a collision or takes the neutron
across the nearest surface. -/
noncomputable def walkScore (G : ℕ) (nodes : Nuclide → List MgNode) (w : World) (method : Method)
    (hit : SurfaceObj → Direction → ℕ → ℝ≥0∞) :
    ℕ → Cell → Point → Direction → ℕ → (ℕ → ℝ) → ℝ≥0∞
  | 0, _, _, _, _, _ => 0
  | n + 1, c, x, d, g, us => c.material.elim 0 fun m =>
    if FliesTo method (ahead c x d) (-Real.log (1 - us 0) / macroscopic G nodes g m) then
      (faced c x d).elim 0 fun s => (cellAt w (beyond c x d)).elim 0 fun c' =>
        hit s d g + walkScore G nodes w method hit n c' (beyond c x d) d g fun k => us (k + 1)
    else
      afterCollision G nodes m g
        (walkScore G nodes w method hit n c
          (along x d (-Real.log (1 - us 0) / macroscopic G nodes g m)))
        fun k => us (k + drawnBefore method)

/-- What the state of a neutron after a round scores: `hit` if it has crossed a surface. -/
noncomputable def scoreOf (hit : SurfaceObj → Direction → ℕ → ℝ≥0∞) (p : Particle) : ℝ≥0∞ :=
  if CrossedSurface p then
    p.currentSurface.elim 0 fun s => match p.energy with
      | .group g => hit s p.direction g
      | _ => 0
  else 0

/-- The score of the current estimator of a surface for one of its bins: one for a crossing of the
surface, in the direction and group of the bin. -/
noncomputable def currentHit (surface : SurfaceObj) (bins : ParticleBins) (i : ℕ) (s : SurfaceObj)
    (d : Direction) (g : ℕ) : ℝ≥0∞ :=
  if s.id = surface.id ∧ bins.getIndex d g = .ok i then 1 else 0

/-! ### The transport equation -/

/-- The mean over all directions. -/
noncomputable def sphereMean (F : Direction → ℝ≥0∞) : ℝ≥0∞ :=
  ENNReal.ofReal (1 / (4 * Real.pi)) *
    ∫⁻ z in Set.Ioo (-1 : ℝ) 1, ∫⁻ φ in Set.Ioo 0 (2 * Real.pi),
      F ⟨z, Real.sqrt (1 - z ^ 2) * Real.cos φ, Real.sqrt (1 - z ^ 2) * Real.sin φ⟩

/-- What is to be expected, per unit length, of the neutrons that scatter: for each group the rate of
scattering into it times the mean over the directions. -/
noncomputable def emission (G : ℕ) (nodes : Nuclide → List MgNode) (m : Material) (g : ℕ)
    (E : Direction → ℕ → ℝ≥0∞) : ℝ≥0∞ :=
  ∑ g' ∈ Finset.Icc 1 G, ENNReal.ofReal (transferRate G nodes m g g') * sphereMean fun d => E d g'

/-- The right hand side of the integral transport equation: what is emitted along the way to the next
surface and what is expected beyond the surface, both attenuated. -/
noncomputable def transported (G : ℕ) (nodes : Nuclide → List MgNode) (w : World)
    (hit : SurfaceObj → Direction → ℕ → ℝ≥0∞) (E : Cell → Point → Direction → ℕ → ℝ≥0∞)
    (c : Cell) (x : Point) (d : Direction) (g : ℕ) : ℝ≥0∞ :=
  c.material.elim 0 fun m =>
    (∫⁻ s in {s : ℝ | 0 < s ∧ (s : WithTop ℝ) < ahead c x d},
      ENNReal.ofReal (Real.exp (-(macroscopic G nodes g m * s))) *
        emission G nodes m g (E c (along x d s))) +
    if ahead c x d = ⊤ then 0 else
      ENNReal.ofReal (Real.exp (-(macroscopic G nodes g m * (ahead c x d).untopD 0))) *
        (faced c x d).elim 0 fun s => (cellAt w (beyond c x d)).elim 0 fun c' =>
          hit s d g + E c' (beyond c x d) d g

/-- The mean of the score in the first rounds, if the numbers are independent. -/
noncomputable def walkMean (G : ℕ) (nodes : Nuclide → List MgNode) (w : World) (method : Method)
    (hit : SurfaceObj → Direction → ℕ → ℝ≥0∞) (n : ℕ) (c : Cell) (x : Point) (d : Direction)
    (g : ℕ) : ℝ≥0∞ :=
  ∫⁻ us, walkScore G nodes w method hit n c x d g us ∂uniforms

/-- The mean of the score in all rounds. -/
noncomputable def meanScore (G : ℕ) (nodes : Nuclide → List MgNode) (w : World) (method : Method)
    (hit : SurfaceObj → Direction → ℕ → ℝ≥0∞) (c : Cell) (x : Point) (d : Direction) (g : ℕ) : ℝ≥0∞ :=
  ∫⁻ us, ⨆ n, walkScore G nodes w method hit n c x d g us ∂uniforms

end Minimc.Spec
