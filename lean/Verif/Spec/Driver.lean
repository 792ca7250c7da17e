import Verif.Model.Driver

/-! # Specification of histories -/

namespace Minimc.Spec

/-- `log` lists the particles of the given forest of families, each with the states it went
through: a particle is recorded before its descendants, and these before its siblings.
`R p (last, scored)` says that transport of `p` ends as `last` after the states `scored`. -/
inductive Forest (R : Particle → Particle × List Particle → Prop) (prepare : Particle → Particle) :
    List Particle → List (Particle × List Particle) → Prop where
  | nil : Forest R prepare [] []
  | cons {p last : Particle} {scored : List Particle} {siblings : List Particle}
      {below beside : List (Particle × List Particle)} :
      R (prepare p) (last, scored) →
      Forest R prepare (last.secondaries.map Particle.ofBorn) below →
      Forest R prepare siblings beside →
      Forest R prepare (p :: siblings) ((prepare p, scored) :: (below ++ beside))

/-- All history numbers that the workers have begun or completed. -/
def WorkerStatus.numbers : WorkerStatus → List ℕ
  | .working e => [e]
  | _ => []

/-- All history numbers that a worker has begun or completed. -/
def claimed (w : Worker) : List ℕ := w.done ++ WorkerStatus.numbers w.status

end Minimc.Spec
