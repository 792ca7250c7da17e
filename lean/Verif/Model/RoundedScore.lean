import Verif.Model.Double
import Verif.Model.Estimator

/-!
# Scores in rounded arithmetic

Scoring, merging and printing with every operation on doubles followed by rounding, as in
`Verif.Model.Rounded`.  The bin of a state is a parameter: whatever index the bins give (for equal
bins see `Rounded.spaceIndex`).  With exact arithmetic each is the function of the same name elsewhere
in the model (`C76_exact_scores`, `C76_exact_printed`).  One scorable is treated; the scorables of an
estimator set do not share any numbers.
-/

namespace Minimc
namespace Rounded

open Classical

variable (rnd : ℝ → ℝ)

/-- `find` and then add to the entry or `insert` (Scorable.cpp:91-98). -/
noncomputable def pendingAdd (index : ℕ) (score : ℝ) : Pending → Pending
  | [] => [(index, score)]
  | (i, x) :: rest =>
    if index < i then (index, score) :: (i, x) :: rest
    else if index = i then (i, rnd (x + score)) :: rest
    else (i, x) :: pendingAdd index score rest

/-- `ScorableProxy::Score` (Scorable.cpp:81-99), where `score` is the result of
`original.GetScore(p)` and `index` that of `original.bins->GetIndex(p)`. -/
noncomputable def pendingScore (index : Particle → Res ℕ) (score : Res ℝ) (p : Particle)
    (pending : Pending) : Res Pending := noexcept do
  let s ← score
  if s = 0 then .ok pending
  else
    let i ← index p
    .ok (pendingAdd rnd i s pending)

/-- `CurrentTotalCrossSectionSensitivity::GetScore` (Sensitivity.cpp:55-58). -/
noncomputable def sensitivityScore (s : Sensitivity) (p : Particle) : Res ℝ := do
  let effect ← p.getIndirectEffect s.perturbation
  .ok (rnd (effect * currentScore s.surface p))

/-- `ScorableProxy::CommitHistory` (Scorable.cpp:101-106). -/
noncomputable def commit : Pending → Scorable → Res Scorable
  | [], s => .ok s
  | (i, x) :: rest, s =>
    match s.scores[i]?, s.squareScores[i]? with
    | some a, some b =>
      commit rest { s with
        scores := s.scores.set i (rnd (a + x))
        squareScores := s.squareScores.set i (rnd (b + rnd (x * x))) }
    | _, _ => .error .ub

/-- All calls of `Score` for one scorable during a history (TransportMethod.cpp:74, 119). -/
noncomputable def scoreStates (index : Particle → Res ℕ) (score : Particle → Res ℝ) :
    List Particle → Pending → Res Pending
  | [], pending => .ok pending
  | p :: ps, pending => do
    let pending ← pendingScore rnd index (score p) p pending
    scoreStates index score ps pending

/-- What a worker does to one scorable of its estimator set (FixedSource.cpp:43-76): one history after
another is scored through a new proxy and committed. -/
noncomputable def addHistories (index : Particle → Res ℕ) (score : Particle → Res ℝ) :
    List (List Particle) → Scorable → Res Scorable
  | [], s => .ok s
  | states :: rest, s => do
    let pending ← scoreStates rnd index score states []
    let s ← commit rnd pending s
    addHistories index score rest s

/-- `std::transform` with `std::plus` (Scorable.cpp:39-45). -/
noncomputable def addAll : List ℝ → List ℝ → Res (List ℝ)
  | [], _ => .ok []
  | _ :: _, [] => .error .ub
  | x :: xs, y :: ys => do
    let rest ← addAll xs ys
    .ok (rnd (x + y) :: rest)

/-- `Scorable::operator+=` (Scorable.cpp:37-47). -/
noncomputable def addScorable (s other : Scorable) : Res Scorable := do
  let scores ← addAll rnd s.scores other.scores
  let squares ← addAll rnd s.squareScores other.squareScores
  .ok { s with scores := scores, squareScores := squares }

/-- The loop of `FixedSource::Solve` (FixedSource.cpp:26-33) for one scorable: every worker starts
from the initial scores and their results are added in order. -/
noncomputable def solveScores (index : Particle → Res ℕ) (score : Particle → Res ℝ)
    (init : Scorable) : List (List (List Particle)) → Scorable → Res Scorable
  | [], s => .ok s
  | histories :: rest, s => do
    let worker ← addHistories rnd index score histories init
    let s ← addScorable rnd s worker
    solveScores index score init rest s

/-- A mean printed by `GetScoreAsString` (Scorable.cpp:55-57). -/
noncomputable def mean (score totalWeight : ℝ) : Res ℝ :=
  if totalWeight = 0 then .error .nan else .ok (rnd (score / totalWeight))

/-- A standard deviation printed by `GetScoreAsString` (Scorable.cpp:61-67). -/
noncomputable def stdDev (score squareScore totalWeight : ℝ) : Res ℝ :=
  let difference := rnd (squareScore - rnd (rnd (score * score) / totalWeight))
  if totalWeight = 0 then .error .nan
  else if difference < 0 then .error .nan
  else .ok (rnd (rnd (Real.sqrt difference) / totalWeight))

end Rounded
end Minimc
