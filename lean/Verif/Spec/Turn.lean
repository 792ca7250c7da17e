import Verif.Spec.Experiment

/-! # Specification of a problem that is turned or mirrored as a whole -/

namespace Minimc.Spec

open MeasureTheory
open scoped ENNReal

/-- A rotation about the origin or a reflection in a plane through it, or several of them: straight
lines stay straight, lengths and angles stay what they are. -/
structure Rigid (R : Point → Point) : Prop where
  straight : ∀ x d s, R (along x d s) = along (R x) (R d) s
  angle : ∀ a b, cosAngle (R a) (R b) = cosAngle a b

/-- A surface turned by `R`.  Planes and cylinders cannot be turned away from the x axis (see
`CanTurn`). -/
noncomputable def turnShape (R : Point → Point) : Surface → Surface
  | .sphere center radius => .sphere (R center) radius
  | .planeX c => .planeX c
  | .cylinderX radius => .cylinderX radius

/-- A surface object turned by `R`. -/
noncomputable def turnSurface (R : Point → Point) (s : SurfaceObj) : SurfaceObj :=
  { s with shape := turnShape R s.shape }

/-- The field that has at `R p` the value of the given one at `p`. -/
noncomputable def turnField (R : Point → Point) : ScalarField → ScalarField
  | .constant c => .constant c
  | .linear u l g b => .linear u l (R g) b

/-- A cell turned by `R`. -/
noncomputable def turnCell (R : Point → Point) (c : Cell) : Cell :=
  { c with
    surfaceSenses := c.surfaceSenses.map fun e => (turnSurface R e.1, e.2)
    temperature := turnField R c.temperature }

/-- A world turned by `R`. -/
noncomputable def turnWorld (R : Point → Point) (w : World) : World :=
  { w with
    surfaces := w.surfaces.map (turnSurface R)
    temperature := turnField R w.temperature
    cells := w.cells.map (turnCell R) }

/-- The directions of a source that is turned by `R`. -/
def turnDist (R : Point → Point) : DirectionDist → DirectionDist
  | .constant d => .constant (R d)
  | .isotropic => .isotropic
  | .isotropicFlux r => .isotropicFlux (R r)

/-- A source turned by `R`. -/
def turnSource (R : Point → Point) (s : Source) : Source :=
  { s with position := R s.position, direction := turnDist R s.direction }

/-- Bins whose reference direction is turned by `R`. -/
def turnBins (R : Point → Point) (b : ParticleBins) : ParticleBins :=
  { b with direction := b.direction.map R }

/-- Scores in bins that are turned by `R`. -/
def turnScorable (R : Point → Point) (s : Scorable) : Scorable :=
  { s with bins := turnBins R s.bins }

/-- A sensitivity of an estimator that is turned by `R`. -/
noncomputable def turnSensitivity (R : Point → Point) (s : Sensitivity) : Sensitivity :=
  { s with base := turnScorable R s.base, surface := turnSurface R s.surface }

/-- An estimator that is turned by `R`. -/
noncomputable def turnEstimator (R : Point → Point) (e : Estimator) : Estimator :=
  { e with
    base := turnScorable R e.base
    surface := turnSurface R e.surface
    sensitivities := e.sensitivities.map (turnSensitivity R) }

/-- The estimators of a problem that is turned by `R`. -/
noncomputable def turnSet (R : Point → Point) (s : EstimatorSet) : EstimatorSet :=
  { s with estimators := s.estimators.map (turnEstimator R) }

/-- `P'` is the problem `P` turned by `R`: surfaces, temperatures, source and estimators.  The tracking
method, the seed and the number of threads may be others. -/
structure Turned (R : Point → Point) (P P' : Problem) : Prop where
  world : P'.world = turnWorld R P.world
  source : P'.source = turnSource R P.source
  estimators : P'.init = turnSet R P.init
  histories : P'.batchsize = P.batchsize

/-- Planes are across the x axis and cylinders around it: a cell with one can be turned about that axis,
or mirrored in a plane with it, only. -/
def CanTurn (R : Point → Point) (c : Cell) : Prop :=
  R ⟨1, 0, 0⟩ = ⟨1, 0, 0⟩ ∨ ∀ e ∈ c.surfaceSenses, ∃ center radius, e.1.shape = .sphere center radius

/-- Two scores have the same distribution, if the numbers are independent: all functions of them have
the same mean. -/
def SameLaw (f f' : (ℕ → ℝ) → ℝ≥0∞) : Prop :=
  ∀ φ : ℝ≥0∞ → ℝ≥0∞, Measurable φ → ∫⁻ us, φ (f us) ∂uniforms = ∫⁻ us, φ (f' us) ∂uniforms

/-- The point mirrored in the plane through the origin with normal `n`. -/
noncomputable def mirrored (n x : Point) : Point := along x n (-(2 * cosAngle n x / cosAngle n n))

/-- Balls around the origin and nothing else. -/
structure AroundOrigin (w : World) : Prop where
  surfaces : ∀ s ∈ w.surfaces, ∃ radius, s.shape = .sphere ⟨0, 0, 0⟩ radius
  cells : ∀ c ∈ w.cells, ∀ e ∈ c.surfaceSenses, ∃ radius, e.1.shape = .sphere ⟨0, 0, 0⟩ radius
  uniform : ∀ c ∈ w.cells, ∃ t, c.temperature = .constant t
  uniform' : ∃ t, w.temperature = .constant t

end Minimc.Spec
