import Verif.Spec.Transport
import Mathlib.MeasureTheory.Measure.Lebesgue.Basic
import Mathlib.Algebra.BigOperators.Group.Finset.Basic
import Mathlib.Analysis.SpecialFunctions.Log.Basic

/-! # Specification: what is met on a straight way through the world -/

namespace Minimc.Spec

/-- Collisions per unit length of neutrons of a group in a material: density times the sum, over
the nuclides, of fraction times cross section. -/
noncomputable def macroscopic (G : ℕ) (nodes : Nuclide → List MgNode) (g : ℕ) (m : Material) : ℝ :=
  m.numberDensity * (m.afracs.map fun e => e.2 * specTotal G (nodes e.1) g).sum

/-- A part of the way, within one cell. -/
structure Slice where
  cell : Cell
  start : Point
  rate : ℝ
  length : ℝ

/-- The nearest surface of the cell ahead is at the given distance. -/
def NearestAhead (c : Cell) (x : Point) (d : Direction) (t : ℝ) : Prop :=
  (∃ s, Bounds s c ∧ s.shape.distance x d = (t : WithTop ℝ)) ∧
    ∀ s, Bounds s c → (t : WithTop ℝ) ≤ s.shape.distance x d

/-- The parts of the way of neutrons of group `g` from one point to another in direction `d`, through
cells with material.  Each begins a little beyond the surface at the end of the one before. -/
inductive Route (G : ℕ) (nodes : Nuclide → List MgNode) (w : World) (g : ℕ) (d : Direction) :
    Point → List Slice → Point → Prop where
  | arrived {x : Point} : Route G nodes w g d x [] x
  | slice {x y : Point} {c : Cell} {m : Material} {t : ℝ} {rest : List Slice} : FirstCell w x c →
      c.material = some m → NearestAhead c x d t →
      Route G nodes w g d (along x d (t + 10 / 2 ^ 52)) rest y →
      Route G nodes w g d x (⟨c, x, macroscopic G nodes g m, t⟩ :: rest) y

/-- Length times collisions per unit length, summed over the way. -/
noncomputable def opticalDepth (rs : List Slice) : ℝ := (rs.map fun r => r.rate * r.length).sum

/-- The length of the way. -/
noncomputable def wayLength (rs : List Slice) : ℝ := (rs.map fun r => r.length + 10 / 2 ^ 52).sum

/-- A flight reaches a surface; the two methods differ if it ends exactly there. -/
def ReachesSurface : Method → ℝ → ℝ → Prop
  | .surfaceTracking, surface, flight => surface ≤ flight
  | .cellDeltaTracking, surface, flight => surface < flight

/-- The flights made of the numbers, one for each part of the way, all reach its end. -/
def Clears (method : Method) : List Slice → (ℕ → ℝ) → Prop
  | [], _ => True
  | r :: rs, us => ReachesSurface method r.length (-Real.log (1 - us 0) / r.rate) ∧
      Clears method rs fun n => us (n + 1)

/-- The particle crossed a surface, into another cell or out of the world. -/
def CrossedSurface (p : Particle) : Prop := p.event = .surfaceCross ∨ p.event = .leak

open Classical in
/-- Collisions per unit length of neutrons of group `g` at a point; none outside of materials. -/
noncomputable def rateAt (G : ℕ) (nodes : Nuclide → List MgNode) (w : World) (g : ℕ) (x : Point) : ℝ :=
  if h : ∃ c m, FirstCell w x c ∧ c.material = some m then
    macroscopic G nodes g h.choose_spec.choose
  else 0

/-- The part of the way ends at the surface. -/
def EndsAt (r : Slice) (d : Direction) (surface : SurfaceObj) : Prop :=
  ∃ s, Bounds s r.cell ∧ s.shape.distance r.start d = (r.length : WithTop ℝ) ∧ s.id = surface.id

/-- No two surfaces of a cell are met at the end of the same part of the way. -/
def NoTies (rs : List Slice) (d : Direction) : Prop :=
  ∀ r ∈ rs, ∀ s s', EndsAt r d s → EndsAt r d s' → s.id = s'.id

open Classical in
/-- How often the surface is crossed by a neutron whose flights are made of the numbers. -/
noncomputable def passages (method : Method) (rs : List Slice) (d : Direction) (surface : SurfaceObj)
    (us : ℕ → ℝ) : ℕ :=
  ∑ k ∈ Finset.range rs.length,
    if (∃ r, rs[k]? = some r ∧ EndsAt r d surface) ∧ Clears method (rs.take (k + 1)) us then 1 else 0

/-- Every cell with material is the first one at all of its points. -/
def Separated (w : World) : Prop :=
  ∀ x c, c ∈ w.cells → c.material ≠ none → InCell c x → FirstCell w x c

end Minimc.Spec
