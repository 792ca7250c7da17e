import Verif.Model.Estimator
import Verif.Model.Source

/-! # Histories, workers and drivers (FixedSource.cpp, KEigenvalue.cpp, Driver.cpp, Bank.cpp)

A worker's only shared state is the atomic counter `histories_elapsed`.  An execution of `Solve`
is modelled as a sequence of steps of the workers in any order, where fetching the next history
number is one step and running that history another. -/

namespace Minimc

/-- `Bank` (Bank.hpp:9-26): `std::list<Particle>`, front first. -/
abbrev Bank := List Particle

/-- `Bank::operator+=` (Bank.cpp:5-8): the new particles are put at the front. -/
def Bank.append (bank new : Bank) : Bank := new ++ bank

/-- `Particle::SetPerturbations` (Particle.cpp:71-73). -/
noncomputable def Particle.setPerturbations (p : Particle) (qs : List Perturbation) : Particle :=
  { p with indirectEffects := getIndirectEffects qs }

/-- `while (!bank.empty())` (FixedSource.cpp:63-72) with at most `n` rounds, where `run` is
`Particle::Transport` (Particle.cpp:42-44).  Returns the particles as they were when transport
began, each with the states that were scored. -/
noncomputable def processBank (run : Particle → Res (Particle × List Particle))
    (qs : List Perturbation) : ℕ → Bank → Res (List (Particle × List Particle))
  | n, bank =>
    match bank.getLast? with
    | none => .ok []
    | some p =>
      match n with
      | 0 => .error .fuel
      | n + 1 => do
        let p := p.setPerturbations qs
        let (last, scored) ← run p
        let rest ← processBank run qs n
          (Bank.append bank.dropLast (last.secondaries.map Particle.ofBorn))
        .ok ((p, scored) :: rest)

/-- The members of a driver (Driver.hpp:32-50, FixedSource.hpp:26) and the global transport
method (Driver.cpp:51). -/
structure Problem where
  world : World
  perturbations : List Perturbation
  batchsize : ℕ
  seed : ℕ
  init : EstimatorSet
  threads : ℕ
  method : Method
  source : Source

/-- The states scored by the history with number `e` (FixedSource.cpp:59-72), with at most
`fuel` rounds in each loop. -/
noncomputable def Problem.history (P : Problem) (fuel e : ℕ) : Res (List Particle) := do
  let born ← P.source.sample (P.seed + e)
  let log ← processBank (transport P.method fuel P.world) P.perturbations fuel
    [Particle.ofBorn born]
  .ok (log.flatMap Prod.snd)

/-- Where a worker is in `StartWorker` (FixedSource.cpp:40-77). -/
inductive WorkerStatus where
  | ready
  | working (history : ℕ)
  | stopped
deriving DecidableEq

/-- A worker: its estimator set (FixedSource.cpp:42) and its place in the loop.  `done` lists the
histories that it has committed and is not part of the program's state. -/
structure Worker where
  set : EstimatorSet
  status : WorkerStatus
  done : List ℕ

/-- The state shared by the workers (FixedSource.hpp:29) and the workers. -/
structure Pool where
  elapsed : ℕ
  workers : List Worker

/-- State when the threads have been spawned (FixedSource.cpp:26-29, 42): every worker has a copy
of the initial set; `elapsed` is the value of the counter. -/
def Pool.start (init : EstimatorSet) (threads elapsed : ℕ) : Pool :=
  ⟨elapsed, List.replicate threads ⟨init, .ready, []⟩⟩

/-- One step of worker `i`.  `fetch` is `histories_elapsed++` and the test (FixedSource.cpp:50-53);
`finish` runs the history and commits it (FixedSource.cpp:59-74). -/
inductive PoolStep (batchsize : ℕ) (history : ℕ → Res (List Particle)) : Pool → Pool → Prop where
  | fetch {s : Pool} {i : ℕ} {w : Worker} : s.workers[i]? = some w → w.status = .ready →
      PoolStep batchsize history s
        ⟨s.elapsed + 1, s.workers.set i
          { w with status := if s.elapsed ≥ batchsize then .stopped else .working s.elapsed }⟩
  | finish {s : Pool} {i e : ℕ} {w : Worker} {scored : List Particle} {set' : EstimatorSet} :
      s.workers[i]? = some w → w.status = .working e → history e = .ok scored →
      w.set.addHistory scored = .ok set' →
      PoolStep batchsize history s
        ⟨s.elapsed, s.workers.set i ⟨set', .ready, w.done ++ [e]⟩⟩

/-- Any number of steps. -/
inductive PoolRun (batchsize : ℕ) (history : ℕ → Res (List Particle)) : Pool → Pool → Prop where
  | refl (s : Pool) : PoolRun batchsize history s s
  | step {s s' s'' : Pool} : PoolRun batchsize history s s' →
      PoolStep batchsize history s' s'' → PoolRun batchsize history s s''

/-- All workers have left their loop (FixedSource.cpp:52, 76). -/
def Pool.Finished (s : Pool) : Prop := ∀ w ∈ s.workers, w.status = .stopped

/-- Merging the workers' sets into a copy of the initial set in the order of the workers
(FixedSource.cpp:30-33). -/
noncomputable def mergeAll : EstimatorSet → List EstimatorSet → Res EstimatorSet
  | s, [] => .ok s
  | s, x :: xs => do
    let s' ← s.add x
    mergeAll s' xs

/-- `r` can be returned by `Solve` (FixedSource.cpp:22-36) when `histories_elapsed` is `elapsed`
at the call, leaving it at `elapsed'`. -/
def SolveResult (P : Problem) (fuel elapsed : ℕ) (r : EstimatorSet) (elapsed' : ℕ) : Prop :=
  ∃ s, PoolRun P.batchsize (P.history fuel) (Pool.start P.init P.threads elapsed) s ∧
    s.Finished ∧ mergeAll P.init (s.workers.map Worker.set) = .ok r ∧ s.elapsed = elapsed'

/-! ### Eigenvalue driver -/

/-- The source bank built by the `KEigenvalue` constructor (KEigenvalue.cpp:29-33). -/
noncomputable def keigenSourceBank (source : Source) (batchsize : ℕ) : Res Bank := do
  let born ← (List.range' 1 batchsize).mapM source.sample
  .ok (born.map Particle.ofBorn)

/-- The results of the threads of a cycle (KEigenvalue.cpp:43-48): the statement that would start a
worker is commented out, so nothing is ever appended. -/
def keigenThreadResults (threads : ℕ) : List (Bank × EstimatorSet) :=
  (List.range threads).foldl (fun results _ => results) []

/-- One cycle (KEigenvalue.cpp:39-60): the statements that would use a result are missing, so it
changes nothing. -/
def keigenCycle (threads : ℕ) (s : EstimatorSet) : EstimatorSet :=
  (keigenThreadResults threads).foldl (fun s _ => s) s

/-- `KEigenvalue::Solve` (KEigenvalue.cpp:36-62); only inactive cycles are iterated over. -/
def keigenSolve (P : Problem) (lastInactive : ℕ) : EstimatorSet :=
  (List.range lastInactive).foldl (fun s _ => keigenCycle P.threads s) P.init

/-- `KEigenvalue::NextParticle` (KEigenvalue.cpp:76-84), run under a lock. -/
def nextParticle (bank : Bank) : Option Particle × Bank :=
  match bank.getLast? with
  | some p => (some p, bank.dropLast)
  | none => (none, bank)

/-- A worker of the eigenvalue driver: the particles it was given, and whether it has seen the
empty bank (KEigenvalue.cpp:66-74). -/
structure BankWorker where
  taken : List Particle
  stopped : Bool

/-- The bank shared by the workers (KEigenvalue.hpp:43-45) and the workers. -/
structure BankPool where
  bank : Bank
  workers : List BankWorker

/-- One call of `NextParticle` by a worker in its loop (KEigenvalue.cpp:70, 76-84); the lock makes
calls indivisible. -/
inductive BankStep : BankPool → BankPool → Prop where
  | call {s : BankPool} {i : ℕ} {w : BankWorker} : s.workers[i]? = some w → w.stopped = false →
      BankStep s ⟨(nextParticle s.bank).2, s.workers.set i
        (match (nextParticle s.bank).1 with
        | some p => { w with taken := w.taken ++ [p] }
        | none => { w with stopped := true })⟩

/-- Any number of calls. -/
inductive BankRun : BankPool → BankPool → Prop where
  | refl (s : BankPool) : BankRun s s
  | step {s s' s'' : BankPool} : BankRun s s' → BankStep s' s'' → BankRun s s''

end Minimc
