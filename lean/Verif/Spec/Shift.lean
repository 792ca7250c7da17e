import Verif.Model.Driver

/-! # Specification of a problem that is moved as a whole -/

namespace Minimc.Spec

/-- A surface moved by `v`.  The axis of a cylinder cannot be moved (see `CanShift`). -/
noncomputable def shiftShape (v : Point) : Surface → Surface
  | .sphere center radius => .sphere (center + v) radius
  | .planeX c => .planeX (c + v.x)
  | .cylinderX radius => .cylinderX radius

/-- A surface object moved by `v`. -/
noncomputable def shiftSurface (v : Point) (s : SurfaceObj) : SurfaceObj :=
  { s with shape := shiftShape v s.shape }

/-- The field that has at `p + v` the value of the given one at `p`. -/
noncomputable def shiftField (v : Point) : ScalarField → ScalarField
  | .constant c => .constant c
  | .linear u l g b => .linear u l g (b - g.dot v)

/-- A cell moved by `v`. -/
noncomputable def shiftCell (v : Point) (c : Cell) : Cell :=
  { c with
    surfaceSenses := c.surfaceSenses.map (fun e => (shiftSurface v e.1, e.2))
    temperature := shiftField v c.temperature }

/-- A world moved by `v`. -/
noncomputable def shiftWorld (v : Point) (w : World) : World :=
  { w with
    surfaces := w.surfaces.map (shiftSurface v)
    temperature := shiftField v w.temperature
    cells := w.cells.map (shiftCell v) }

/-- A source moved by `v`. -/
noncomputable def shiftSource (v : Point) (s : Source) : Source :=
  { s with position := s.position + v }

/-- A sensitivity of an estimator that is moved by `v`. -/
noncomputable def shiftSensitivity (v : Point) (s : Sensitivity) : Sensitivity :=
  { s with surface := shiftSurface v s.surface }

/-- An estimator on a surface that is moved by `v`. -/
noncomputable def shiftEstimator (v : Point) (e : Estimator) : Estimator :=
  { e with
    surface := shiftSurface v e.surface
    sensitivities := e.sensitivities.map (shiftSensitivity v) }

/-- The estimators of a problem that is moved by `v`. -/
noncomputable def shiftSet (v : Point) (s : EstimatorSet) : EstimatorSet :=
  { s with estimators := s.estimators.map (shiftEstimator v) }

/-- A problem moved by `v`: surfaces, temperatures and the source. -/
noncomputable def shiftProblem (v : Point) (P : Problem) : Problem :=
  { P with
    world := shiftWorld v P.world
    init := shiftSet v P.init
    source := shiftSource v P.source }

/-- A particle about to be transported, moved by `v`. -/
noncomputable def shiftBorn (v : Point) (b : Born) : Born :=
  { b with position := b.position + v, cell := b.cell.map (shiftCell v) }

/-- A particle moved by `v` with all it refers to. -/
noncomputable def shiftParticle (v : Point) (p : Particle) : Particle :=
  { p with
    secondaries := p.secondaries.map (shiftBorn v)
    position := p.position + v
    cell := p.cell.map (shiftCell v)
    currentSurface := p.currentSurface.map (shiftSurface v) }

/-- Cylinders are around the x axis: a cell with one can be moved along that axis only. -/
def CanShift (v : Point) (c : Cell) : Prop :=
  (v.y = 0 ∧ v.z = 0) ∨ ∀ e ∈ c.surfaceSenses, ∀ r, e.1.shape ≠ .cylinderX r

end Minimc.Spec
