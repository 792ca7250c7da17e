import Verif.Model.Estimator
import Verif.Spec.Bins

/-! # Specification of scoring -/

open Classical

namespace Minimc.Spec

/-- The particle's last step took it across the surface, into another cell or out of the
problem. -/
def Crossed (surface : SurfaceObj) (p : Particle) : Prop :=
  ∃ s, p.currentSurface = some s ∧ s.id = surface.id ∧
    (p.event = .surfaceCross ∨ p.event = .leak)

/-- Sum of the scores `f p` of those states that belong to bin `i`. -/
noncomputable def historyScore (bins : ParticleBins) (f : Particle → ℝ) (states : List Particle)
    (i : ℕ) : ℝ :=
  (states.map (fun p => if bins.getIndex p.direction p.energy.toReal = .ok i then f p else 0)).sum

/-- What one history adds in each bin: its score and the square of its score. -/
noncomputable def historyTally (bins : ParticleBins) (f : Particle → ℝ) (states : List Particle)
    (i : ℕ) : ℝ × ℝ :=
  (historyScore bins f states i, historyScore bins f states i ^ 2)

/-- Number of states that crossed the surface and belong to bin `i`. -/
noncomputable def crossings (surface : SurfaceObj) (bins : ParticleBins) (states : List Particle)
    (i : ℕ) : ℕ :=
  states.countP (fun p => decide (Crossed surface p ∧
    bins.getIndex p.direction p.energy.toReal = .ok i))

/-- Scores and squared scores of an estimator set: by the name of the estimator, for a
sensitivity also by its name, and by bin. -/
abbrev Tallies := String → Option String → ℕ → ℝ × ℝ

end Minimc.Spec

namespace Minimc

/-- The scorable with its scores replaced. -/
noncomputable def Scorable.withTally (s : Scorable) (t : ℕ → ℝ × ℝ) : Scorable :=
  { s with
    scores := (List.range s.bins.size).map (fun i => (t i).1)
    squareScores := (List.range s.bins.size).map (fun i => (t i).2) }

/-- The estimator with its scores and those of its sensitivities replaced. -/
noncomputable def Estimator.withTallies (e : Estimator) (t : Option String → ℕ → ℝ × ℝ) :
    Estimator :=
  { e with
    base := e.base.withTally (t none)
    sensitivities := e.sensitivities.map
      (fun q => { q with base := q.base.withTally (t (some q.base.name)) }) }

/-- The estimator set with all scores replaced. -/
noncomputable def EstimatorSet.withTallies (s : EstimatorSet) (t : Spec.Tallies) : EstimatorSet :=
  { s with estimators := s.estimators.map (fun e => e.withTallies (t e.base.name)) }

/-- Vectors of scores have the size of the bins. -/
def Scorable.Shaped (s : Scorable) : Prop :=
  s.scores.length = s.bins.size ∧ s.squareScores.length = s.bins.size

/-- All vectors of scores in the set have the size of the bins, and estimators and the
sensitivities of an estimator are determined by their names. -/
structure EstimatorSet.Shaped (s : EstimatorSet) : Prop where
  names : ∀ e ∈ s.estimators, ∀ e' ∈ s.estimators, e.base.name = e'.base.name → e = e'
  sensitivityNames : ∀ e ∈ s.estimators, ∀ q ∈ e.sensitivities, ∀ q' ∈ e.sensitivities,
    q.base.name = q'.base.name → q = q'
  base : ∀ e ∈ s.estimators, e.base.Shaped
  sensitivities : ∀ e ∈ s.estimators, ∀ q ∈ e.sensitivities, q.base.Shaped

/-- All bins in the set are bins that a user can obtain. -/
structure EstimatorSet.BinsCreated (s : EstimatorSet) : Prop where
  base : ∀ e ∈ s.estimators, Spec.CreatedParticleBins e.base.bins
  sensitivities : ∀ e ∈ s.estimators, ∀ q ∈ e.sensitivities, Spec.CreatedParticleBins q.base.bins

namespace Spec

/-- The score that a sensitivity makes for a particle: the accumulated effect if the particle
crossed the surface. -/
noncomputable def effectAtCrossing (surface : SurfaceObj) (q : Perturbation) (p : Particle) : ℝ :=
  if Crossed surface p then
    ((p.indirectEffects.find? (fun e => e.1.id == q.id)).map Prod.snd).getD 0
  else 0

/-- `c` is what a history with the given states adds to the scores of the set. -/
structure Contribution (s : EstimatorSet) (states : List Particle) (c : Tallies) : Prop where
  base : ∀ e ∈ s.estimators, ∀ i, c e.base.name none i =
    historyTally e.base.bins (fun p => if Crossed e.surface p then 1 else 0) states i
  sensitivities : ∀ e ∈ s.estimators, ∀ q ∈ e.sensitivities, ∀ i,
    c e.base.name (some q.base.name) i =
      historyTally q.base.bins (effectAtCrossing q.surface q.perturbation) states i

/-- Scoring the state is possible: every state that scores has a bin (see C10), and the effects
of all perturbations are there. -/
structure CanScore (s : EstimatorSet) (p : Particle) : Prop where
  base : ∀ e ∈ s.estimators, Crossed e.surface p →
    ∃ i, e.base.bins.getIndex p.direction p.energy.toReal = .ok i
  effects : ∀ e ∈ s.estimators, ∀ q ∈ e.sensitivities,
    ∃ x ∈ p.indirectEffects, x.1.id = q.perturbation.id
  sensitivities : ∀ e ∈ s.estimators, ∀ q ∈ e.sensitivities,
    effectAtCrossing q.surface q.perturbation p ≠ 0 →
      ∃ i, q.base.bins.getIndex p.direction p.energy.toReal = .ok i

end Spec
end Minimc

namespace Minimc.Spec

/-- Where both sets have an estimator of the same name, the estimators have as many bins and
those of the second have all sensitivities of those of the first. -/
structure Compatible (s o : EstimatorSet) : Prop where
  size : ∀ e ∈ s.estimators, ∀ e' ∈ o.estimators, e.base.name = e'.base.name →
    e'.base.bins.size = e.base.bins.size
  sensitivities : ∀ e ∈ s.estimators, ∀ e' ∈ o.estimators, e.base.name = e'.base.name →
    ∀ q ∈ e.sensitivities, ∃ q' ∈ e'.sensitivities, q.base.name = q'.base.name
  sensitivitySize : ∀ e ∈ s.estimators, ∀ e' ∈ o.estimators, e.base.name = e'.base.name →
    ∀ q ∈ e.sensitivities, ∀ q' ∈ e'.sensitivities, q.base.name = q'.base.name →
      q'.base.bins.size = q.base.bins.size

/-- The second set has an estimator for every name in the first. -/
def AllNamed (s o : EstimatorSet) : Prop :=
  ∀ e ∈ s.estimators, ∃ e' ∈ o.estimators, e.base.name = e'.base.name

end Minimc.Spec

namespace Minimc.Spec

/-- The scorable `b'` is `b` with the score and the squared score of a history added in every
bin. -/
structure HistoryAdded (f : Particle → ℝ) (states : List Particle) (b b' : Minimc.Scorable) :
    Prop where
  name : b'.name = b.name
  bins : b'.bins = b.bins
  length : b'.scores.length = b.scores.length
  squareLength : b'.squareScores.length = b.squareScores.length
  scores : ∀ i < b.scores.length,
    b'.scores.getD i 0 = b.scores.getD i 0 + historyScore b.bins f states i
  squares : ∀ i < b.squareScores.length,
    b'.squareScores.getD i 0 = b.squareScores.getD i 0 + historyScore b.bins f states i ^ 2

/-- The scorable `b'` is `b` with the scores of `o` added bin by bin. -/
structure BinsAdded (b o b' : Minimc.Scorable) : Prop where
  name : b'.name = b.name
  bins : b'.bins = b.bins
  length : b'.scores.length = b.scores.length
  squareLength : b'.squareScores.length = b.squareScores.length
  scores : ∀ i < b.scores.length, b'.scores.getD i 0 = b.scores.getD i 0 + o.scores.getD i 0
  squares : ∀ i < b.squareScores.length,
    b'.squareScores.getD i 0 = b.squareScores.getD i 0 + o.squareScores.getD i 0

/-- Arithmetic mean. -/
noncomputable def mean (xs : List ℝ) : ℝ := xs.sum / xs.length

/-- The estimate of the standard deviation of the mean: the square root of the mean squared
deviation divided by the number of samples. -/
noncomputable def standardError (xs : List ℝ) : ℝ :=
  Real.sqrt (mean (xs.map (fun x => (x - mean xs) ^ 2)) / xs.length)

/-- The set after several histories, one after another. -/
noncomputable def afterHistories (s : EstimatorSet) : List (List Particle) → Res EstimatorSet
  | [] => .ok s
  | h :: hs => do
    let s' ← s.addHistory h
    afterHistories s' hs

end Minimc.Spec
