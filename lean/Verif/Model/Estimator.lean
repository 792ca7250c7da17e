import Verif.Model.Transport

/-! # Estimators, sensitivities and scoring (Scorable.cpp, Estimator.cpp, Sensitivity.cpp,
Perturbation.cpp) -/

namespace Minimc

open Classical

/-- `Scorable` (Scorable.hpp:23-62). -/
structure Scorable where
  name : String
  bins : ParticleBins
  scores : List ℝ
  squareScores : List ℝ

namespace Scorable

/-- `Scorable(name, bins_node)` (Scorable.cpp:17-20) with bins that were created. -/
noncomputable def fresh (name : String) (bins : ParticleBins) : Scorable :=
  ⟨name, bins, List.replicate bins.size 0, List.replicate bins.size 0⟩

/-- `Scorable(estimator, perturbation)` (Scorable.cpp:22-28). -/
noncomputable def ofPerturbation (estimator : Scorable) (q : Perturbation) : Scorable :=
  fresh (estimator.name ++ "::" ++ q.name) estimator.bins

/-- `Scorable::GetScore(index, total_weight)` (Scorable.cpp:32-35).  Division by zero is not a
number or infinite. -/
noncomputable def getScore (s : Scorable) (index : ℕ) (totalWeight : ℝ) : Res ℝ := noexcept do
  let x ← vecAt s.scores index
  if totalWeight = 0 then .error .nan else .ok (x / totalWeight)

/-- `std::transform` with `std::plus` (Scorable.cpp:39-45) over a vector and one that must be at
least as long; reading past its end is undefined. -/
noncomputable def addAll : List ℝ → List ℝ → Res (List ℝ)
  | [], _ => .ok []
  | _ :: _, [] => .error .ub
  | x :: xs, y :: ys => do
    let rest ← addAll xs ys
    .ok ((x + y) :: rest)

/-- `Scorable::operator+=` (Scorable.cpp:37-47). -/
noncomputable def add (s other : Scorable) : Res Scorable := do
  let scores ← addAll s.scores other.scores
  let squares ← addAll s.squareScores other.squareScores
  .ok { s with scores := scores, squareScores := squares }

/-- The means printed by `GetScoreAsString` (Scorable.cpp:55-57). -/
noncomputable def means (s : Scorable) (totalWeight : ℝ) : List (Res ℝ) :=
  s.scores.map (fun x => if totalWeight = 0 then .error .nan else .ok (x / totalWeight))

/-- One standard deviation printed by `GetScoreAsString` (Scorable.cpp:62-65); the square root
of a negative number is not a number. -/
noncomputable def stdDev (score squareScore totalWeight : ℝ) : Res ℝ :=
  if totalWeight = 0 then .error .nan
  else if squareScore - score * score / totalWeight < 0 then .error .nan
  else .ok (Real.sqrt (squareScore - score * score / totalWeight) / totalWeight)

/-- The standard deviations printed by `GetScoreAsString` (Scorable.cpp:61-67). -/
noncomputable def stdDevs (s : Scorable) (totalWeight : ℝ) : List (Res ℝ) :=
  List.zipWith (fun x y => stdDev x y totalWeight) s.scores s.squareScores

end Scorable

/-- `pending_scores` of a `ScorableProxy` (Scorable.hpp:85): a map in the order of the
indices. -/
abbrev Pending := List (ℕ × ℝ)

namespace Pending

/-- `find` and then add to the entry or `insert` (Scorable.cpp:91-98). -/
noncomputable def add (index : ℕ) (score : ℝ) : Pending → Pending
  | [] => [(index, score)]
  | (i, x) :: rest =>
    if index < i then (index, score) :: (i, x) :: rest
    else if index = i then (i, x + score) :: rest
    else (i, x) :: add index score rest

/-- `ScorableProxy::Score` (Scorable.cpp:81-99) for a scorable with the given bins, where `score`
is the result of `original.GetScore(p)`. -/
noncomputable def score (bins : ParticleBins) (score : Res ℝ) (p : Particle) (pending : Pending) :
    Res Pending := noexcept do
  let s ← score
  if s = 0 then .ok pending
  else
    let index ← bins.getIndex p.direction p.energy.toReal
    .ok (add index s pending)

/-- `ScorableProxy::CommitHistory` (Scorable.cpp:101-106): the vectors are indexed without a
check. -/
noncomputable def commit : Pending → Scorable → Res Scorable
  | [], s => .ok s
  | (i, x) :: rest, s =>
    match s.scores[i]?, s.squareScores[i]? with
    | some a, some b =>
      commit rest { s with
        scores := s.scores.set i (a + x)
        squareScores := s.squareScores.set i (b + x * x) }
    | _, _ => .error .ub

end Pending

/-- `CurrentEstimator::GetScore` (Estimator.cpp:142-151); surfaces are compared by address. -/
def currentScore (surface : SurfaceObj) (p : Particle) : ℝ :=
  match p.currentSurface with
  | some s =>
    if s.id = surface.id ∧ (p.event = .surfaceCross ∨ p.event = .leak) then 1 else 0
  | none => 0

/-- `Particle::GetIndirectEffect` (Particle.cpp:66-69): `at` in a `noexcept` function. -/
def Particle.getIndirectEffect (p : Particle) (q : Perturbation) : Res ℝ := noexcept <|
  match p.indirectEffects.find? (fun e => e.1.id == q.id) with
  | some e => .ok e.2
  | none => .error .outOfRange

/-- `CurrentTotalCrossSectionSensitivity` (Sensitivity.hpp:50-61), the only class derived from
`Sensitivity`.  Of the referenced estimator only `GetScore` is used, hence `surface`. -/
structure Sensitivity where
  base : Scorable
  surface : SurfaceObj
  perturbation : Perturbation

/-- `CurrentTotalCrossSectionSensitivity::GetScore` (Sensitivity.cpp:55-58). -/
noncomputable def Sensitivity.getScore (s : Sensitivity) (p : Particle) : Res ℝ := do
  let effect ← p.getIndirectEffect s.perturbation
  .ok (effect * currentScore s.surface p)

/-- `CurrentEstimator` (Estimator.hpp:77-94), the only class derived from `Estimator`.  Copies
(Estimator.cpp:35-44, 135-140) are the same values. -/
structure Estimator where
  base : Scorable
  surface : SurfaceObj
  sensitivities : List Sensitivity

namespace Estimator

/-- The loop over the sensitivities in `Estimator::operator+=` (Estimator.cpp:63-70);
dereferencing the end of `other.sensitivities` is undefined. -/
noncomputable def addSensitivities (others : List Sensitivity) :
    List Sensitivity → Res (List Sensitivity)
  | [] => .ok []
  | s :: rest =>
    match others.find? (fun o => s.base.name == o.base.name) with
    | none => .error .ub
    | some o => do
      let b ← s.base.add o.base
      let rest' ← addSensitivities others rest
      .ok ({ s with base := b } :: rest')

/-- `Estimator::operator+=` (Estimator.cpp:59-72). -/
noncomputable def add (e other : Estimator) : Res Estimator := do
  let b ← e.base.add other.base
  let ss ← addSensitivities other.sensitivities e.sensitivities
  .ok { e with base := b, sensitivities := ss }

end Estimator

/-- `EstimatorSet` (Estimator.hpp:97-131). -/
structure EstimatorSet where
  estimators : List Estimator
  totalWeight : ℝ

namespace EstimatorSet

/-- `EstimatorSet::FindEstimatorByName` (Estimator.cpp:187-205). -/
def findEstimatorByName (s : EstimatorSet) (name : String) : Res Estimator :=
  match s.estimators.find? (fun e => e.base.name == name) with
  | some e => .ok e
  | none => .error .runtimeError

/-- The loop of `EstimatorSet::operator+=` (Estimator.cpp:216-229). -/
noncomputable def addEstimators (others : List Estimator) : List Estimator → Res (List Estimator)
  | [] => .ok []
  | e :: rest =>
    match others.find? (fun o => e.base.name == o.base.name) with
    | none => .error .runtimeError
    | some o => do
      let e' ← e.add o
      let rest' ← addEstimators others rest
      .ok (e' :: rest')

/-- `EstimatorSet::operator+=` (Estimator.cpp:215-231). -/
noncomputable def add (s other : EstimatorSet) : Res EstimatorSet := do
  let es ← addEstimators other.estimators s.estimators
  .ok { s with estimators := es }

end EstimatorSet

/-- The state of an `EstimatorProxy` (Estimator.hpp:60-74): its own pending scores and those of
the proxies of the sensitivities. -/
structure EstimatorProxy where
  pending : Pending
  sensitivities : List Pending

namespace EstimatorProxy

/-- `EstimatorProxy(original)` (Estimator.cpp:97-106). -/
def create (e : Estimator) : EstimatorProxy := ⟨[], e.sensitivities.map (fun _ => [])⟩

/-- The loop over the sensitivity proxies (Estimator.cpp:111-113). -/
noncomputable def scoreSensitivities (p : Particle) :
    List Sensitivity → List Pending → Res (List Pending)
  | s :: ss, x :: xs => do
    let x' ← Pending.score s.base.bins (s.getScore p) p x
    let xs' ← scoreSensitivities p ss xs
    .ok (x' :: xs')
  | _, _ => .ok []

/-- `EstimatorProxy::Score` (Estimator.cpp:108-114). -/
noncomputable def score (e : Estimator) (x : EstimatorProxy) (p : Particle) :
    Res EstimatorProxy := do
  let pending ← Pending.score e.base.bins (.ok (currentScore e.surface p)) p x.pending
  let ss ← scoreSensitivities p e.sensitivities x.sensitivities
  .ok ⟨pending, ss⟩

/-- The loop over the sensitivity proxies (Estimator.cpp:119-121). -/
noncomputable def commitSensitivities : List Sensitivity → List Pending → Res (List Sensitivity)
  | s :: ss, x :: xs => do
    let b ← x.commit s.base
    let ss' ← commitSensitivities ss xs
    .ok ({ s with base := b } :: ss')
  | ss, _ => .ok ss

/-- `EstimatorProxy::CommitHistory` (Estimator.cpp:116-122). -/
noncomputable def commit (e : Estimator) (x : EstimatorProxy) : Res Estimator := do
  let b ← x.pending.commit e.base
  let ss ← commitSensitivities e.sensitivities x.sensitivities
  .ok { e with base := b, sensitivities := ss }

end EstimatorProxy

namespace EstimatorSet

/-- `EstimatorSet::GetProxy` (Estimator.cpp:183-185, 237-245). -/
def getProxy (s : EstimatorSet) : List EstimatorProxy := s.estimators.map EstimatorProxy.create

/-- `EstimatorSetProxy::Score` (Estimator.cpp:247-251). -/
noncomputable def scoreAll (p : Particle) :
    List Estimator → List EstimatorProxy → Res (List EstimatorProxy)
  | e :: es, x :: xs => do
    let x' ← EstimatorProxy.score e x p
    let xs' ← scoreAll p es xs
    .ok (x' :: xs')
  | _, _ => .ok []

/-- `EstimatorSetProxy::CommitHistory` (Estimator.cpp:253-257). -/
noncomputable def commitAll : List Estimator → List EstimatorProxy → Res (List Estimator)
  | e :: es, x :: xs => do
    let e' ← EstimatorProxy.commit e x
    let es' ← commitAll es xs
    .ok (e' :: es')
  | es, _ => .ok es

/-- All calls of `e.Score(p)` during a history (TransportMethod.cpp:74, 119), in order. -/
noncomputable def scoreHistory (es : List Estimator) :
    List Particle → List EstimatorProxy → Res (List EstimatorProxy)
  | [], xs => .ok xs
  | p :: ps, xs => do
    let xs' ← scoreAll p es xs
    scoreHistory es ps xs'

/-- What a worker does to its estimator set for one history (FixedSource.cpp:48, 67, 74): get a
proxy, score the given states through it, and commit. -/
noncomputable def addHistory (s : EstimatorSet) (scored : List Particle) : Res EstimatorSet := do
  let xs ← scoreHistory s.estimators scored s.getProxy
  let es ← commitAll s.estimators xs
  .ok { s with estimators := es }

end EstimatorSet

/-! ### Construction -/

/-- A child of the `perturbations` node (Perturbation.cpp:22-24, 40, 49-50). -/
structure PerturbationNode where
  name : String
  nuclide : String

/-- `Perturbation::Create` (Perturbation.cpp:22-33, 46-50) at address `id`. -/
def createPerturbation (w : World) (id : ℕ) (n : PerturbationNode) : Res Perturbation :=
  noexcept do
  let nuclide ← w.findNuclideByName n.nuclide
  .ok ⟨id, n.name, nuclide.id⟩

/-- `PerturbationSet` constructor (Perturbation.cpp:89-97); the i-th perturbation gets the i-th
of the addresses. -/
def createPerturbations (w : World) : List ℕ → List PerturbationNode → Res (List Perturbation)
  | id :: ids, n :: ns => do
    let q ← createPerturbation w id n
    let rest ← createPerturbations w ids ns
    .ok (q :: rest)
  | _, _ => .ok []

/-- `PerturbationSet::FindPerturbationByName` (Perturbation.cpp:99-119). -/
def findPerturbationByName (qs : List Perturbation) (name : String) : Res Perturbation :=
  match qs.find? (fun q => q.name == name) with
  | some q => .ok q
  | none => .error .runtimeError

/-- `PerturbationSet::GetIndirectEffects` (Perturbation.cpp:121-128): a map in the order of the
addresses. -/
noncomputable def getIndirectEffects (qs : List Perturbation) : List (Perturbation × ℝ) :=
  qs.foldl (fun m q => emplaceByAddr Perturbation.id q 0 m) []

/-- A child of the `estimators` node (Estimator.cpp:21-33, 80-81, 85-88, 132-133).  `bins` is the
outcome of the `ParticleBins` constructor; `sensitivities` are the names of the
perturbations. -/
structure EstimatorNode where
  isCurrent : Bool
  name : String
  surface : String
  bins : Res ParticleBins
  sensitivities : List String

/-- The loop over the `sensitivities` node (Estimator.cpp:83-91, Sensitivity.cpp:13-21,
Perturbation.cpp:52-59).  The parent node is a `current` node. -/
noncomputable def createSensitivities (base : Scorable) (qs : List Perturbation) :
    List String → Res (List (Scorable × Perturbation))
  | [] => .ok []
  | n :: ns => do
    let q ← findPerturbationByName qs n
    let rest ← createSensitivities base qs ns
    .ok ((base.ofPerturbation q, q) :: rest)

/-- `Estimator` constructor (Estimator.cpp:76-91), which is `noexcept`. -/
noncomputable def createEstimatorBase (qs : List Perturbation) (n : EstimatorNode) :
    Res (Scorable × List (Scorable × Perturbation)) := noexcept do
  let bins ← n.bins
  let base := Scorable.fresh n.name bins
  let ss ← createSensitivities base qs n.sensitivities
  .ok (base, ss)

/-- `Estimator::Create` and `CurrentEstimator` constructor (Estimator.cpp:21-33, 128-133). -/
noncomputable def createEstimator (w : World) (qs : List Perturbation) (n : EstimatorNode) :
    Res Estimator := do
  if n.isCurrent then
    let (base, ss) ← createEstimatorBase qs n
    let surface ← w.findSurfaceByName n.surface
    .ok ⟨base, surface, ss.map (fun e => ⟨e.1, surface, e.2⟩)⟩
  else .error .assertFail

/-- `EstimatorSet` constructor (Estimator.cpp:157-170). -/
noncomputable def createEstimatorSet (w : World) (qs : List Perturbation)
    (nodes : List EstimatorNode) (totalWeight : ℝ) : Res EstimatorSet := do
  let es ← nodes.mapM (createEstimator w qs)
  .ok ⟨es, totalWeight⟩

end Minimc
