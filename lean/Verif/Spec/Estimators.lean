import Verif.Model.Estimator
import Verif.Spec.World
import Verif.Spec.Bins

/-! # Specification of estimators built from a document -/

namespace Minimc.Spec

/-- The scorable has the given name and bins, and one zero score and squared score per bin. -/
structure Empty (name : String) (bins : ParticleBins) (b : Scorable) : Prop where
  name : b.name = name
  bins : b.bins = bins
  length : b.scores.length = b.bins.size
  squareLength : b.squareScores.length = b.bins.size
  scores : ∀ x ∈ b.scores, x = 0
  squares : ∀ x ∈ b.squareScores, x = 0

/-- `e` is the estimator described by `node`: its name and bins, the first surface of that name, and
for each sensitivity asked for, in the same order, one with the first perturbation of that
name and the same bins and surface. -/
structure EstimatorOf (w : World) (qs : List Perturbation) (node : EstimatorNode) (e : Estimator) :
    Prop where
  bins : node.bins = .ok e.base.bins
  base : Empty node.name e.base.bins e.base
  surface : FirstNamed SurfaceObj.name w.surfaces node.surface e.surface
  sensitivities : List.Forall₂ (fun name (s : Sensitivity) =>
    FirstNamed Perturbation.name qs name s.perturbation ∧ s.surface = e.surface ∧
      Empty (node.name ++ "::" ++ s.perturbation.name) e.base.bins s.base)
    node.sensitivities e.sensitivities

/-- The perturbations that a sensitivity of the node asks for are all defined. -/
def SensitivitiesDefined (qs : List Perturbation) (node : EstimatorNode) : Prop :=
  ∀ name ∈ node.sensitivities, ∃ q ∈ qs, q.name = name

/-- Everything the node refers to is defined. -/
structure NodeDefined (w : World) (qs : List Perturbation) (node : EstimatorNode) : Prop where
  isCurrent : node.isCurrent = true
  bins : ∃ b, node.bins = .ok b
  surface : ∃ s ∈ w.surfaces, s.name = node.surface
  sensitivities : SensitivitiesDefined qs node

/-- `q` is the perturbation described by the node. -/
structure PerturbationOf (w : World) (node : PerturbationNode) (q : Perturbation) : Prop where
  name : q.name = node.name
  nuclide : ∃ n, FirstNamed Nuclide.name w.nuclides node.nuclide n ∧ q.nuclideId = n.id

end Minimc.Spec
