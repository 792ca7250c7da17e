import Verif.Spec.Run
import Verif.Spec.Input

/-! # Specification: straight flights through absorbers -/

namespace Minimc.Spec

/-- Nothing in the world scatters neutrons of any group or is fissioned by them. -/
def Absorbing (G : ℕ) (nodes : Nuclide → List MgNode) (w : World) : Prop :=
  ∀ c ∈ w.cells, ∀ m, c.material = some m → ∀ e ∈ m.afracs, ∀ g, 1 ≤ g → g ≤ G →
    specXS G (nodes e.1) .scatter g = 0 ∧ specXS G (nodes e.1) .fission g = 0

/-- All points whose first cell has material are within the given distance of the origin. -/
def MaterialWithin (R : ℝ) (w : World) : Prop :=
  ∀ x c, FirstCell w x c → c.material ≠ none → x.x ^ 2 + x.y ^ 2 + x.z ^ 2 ≤ R ^ 2

/-- The states of a flight along a ray, from distance `t` on: surfaces are crossed, one further than
the other, until the particle is captured or leaks. -/
inductive Straight (o : Point) (d : Direction) : ℝ → List Particle → Prop where
  | capture {t t' : ℝ} {q : Particle} : t ≤ t' → q.position = along o d t' → q.event = .capture →
      Straight o d t [q]
  | leak {t t' : ℝ} {q : Particle} : t < t' → q.position = along o d t' → q.event = .leak →
      Straight o d t [q]
  | cross {t t' : ℝ} {q : Particle} {rest : List Particle} : t < t' →
      q.position = along o d t' → q.event = .surfaceCross → Straight o d t' rest →
      Straight o d t (q :: rest)

/-- The estimators in the document have no logarithmic grids of cosines, and no logarithmic grids of
energies with a base of one or less. -/
def TotalBinsIn (env : Env) (root : Xml) : Prop :=
  ∀ cs, Grandchildren root "estimators" cs → ∀ n ∈ cs,
    (∀ k, ¬ Reaches n ["bins", "cosine", "logspace"] k) ∧
    ∀ k base, Reaches n ["bins", "energy", "logspace"] k → Number env k "base" base → 1 < base

/-- The names of estimators and perturbations in the document are single lines. -/
def OneLineIn (root : Xml) : Prop :=
  ∀ s ∈ ["estimators", "perturbations"], ∀ cs, Grandchildren root s cs → ∀ n ∈ cs, ∀ v,
    HasAttr n "name" v → '\n' ∉ v.toList

end Minimc.Spec
