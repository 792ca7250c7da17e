import Verif.Lemmas.Shift
import Verif.Lemmas.HistoryBalance
import Verif.Model.Output

/-! # Lemmas about runs of problems that are moved as a whole -/

namespace Minimc

open Classical Spec

variable (v : Point)

theorem shift_loop {w : World} (h : ∀ c ∈ w.cells, CanShift v c) (method : Method) (fuel : ℕ) :
    ∀ (n : ℕ) (p : Particle), (∀ c, p.cell = some c → c ∈ w.cells) →
      transportLoop method fuel (shiftWorld v w) n (shiftParticle v p) =
        (transportLoop method fuel w n p).map
          (fun x => (shiftParticle v x.1, x.2.map (shiftParticle v)))
  | 0, p, _ => by
    unfold transportLoop
    have : (shiftParticle v p).isAlive = p.isAlive := rfl
    rw [this]
    cases p.isAlive <;> rfl
  | n + 1, p, hp => by
    unfold transportLoop
    have : (shiftParticle v p).isAlive = p.isAlive := rfl
    rw [this]
    cases p.isAlive with
    | false => rfl
    | true =>
      simp only [if_true]
      rw [shift_step v h method fuel (fun c hc => h c (hp c hc))]
      cases hs : transportStep method fuel w p with
      | error e => rfl
      | ok p' =>
        simp only [Except.map, bind, Except.bind]
        rw [shift_loop h method fuel n p' (step_cell_mem (step_spec hs) hp)]
        cases transportLoop method fuel w n p' <;> rfl

theorem locate_cell {p q : Particle} {w : World} (h : p.locate w = .ok q) :
    ∀ c, q.cell = some c → c ∈ w.cells := by
  unfold Particle.locate at h
  obtain ⟨c, hc, h⟩ := res_bind_ok.1 h
  rw [← Except.ok.inj h]
  intro c' hc'
  unfold World.findCellContaining at hc
  split at hc
  · next c'' hf =>
    rw [← Option.some.inj hc', ← Except.ok.inj hc]
    exact List.mem_of_find?_eq_some hf
  · cases hc

theorem shift_transport {w : World} (h : ∀ c ∈ w.cells, CanShift v c) (method : Method)
    (fuel : ℕ) (p : Particle) :
    transport method fuel (shiftWorld v w) (shiftParticle v p) =
      (transport method fuel w p).map
        (fun x => (shiftParticle v x.1, x.2.map (shiftParticle v))) := by
  unfold transport
  rw [noexcept_map, shift_locate v h]
  congr 1
  cases hl : p.locate w with
  | error e => rfl
  | ok q => exact shift_loop v h method fuel fuel q (locate_cell hl)

theorem shift_processBank {run run' : Particle → Res (Particle × List Particle)}
    (hrun : ∀ p, run' (shiftParticle v p) = (run p).map
      (fun x => (shiftParticle v x.1, x.2.map (shiftParticle v)))) (qs : List Perturbation) :
    ∀ (n : ℕ) (bank : Bank), processBank run' qs n (bank.map (shiftParticle v)) =
      (processBank run qs n bank).map
        (List.map (fun x => (shiftParticle v x.1, x.2.map (shiftParticle v))))
  | n, bank => by
    unfold processBank
    rw [List.getLast?_map]
    cases bank.getLast? with
    | none => rfl
    | some p =>
      cases n with
      | zero => rfl
      | succ n =>
        simp only [Option.map_some]
        have hp : (shiftParticle v p).setPerturbations qs =
          shiftParticle v (p.setPerturbations qs) := rfl
        rw [hp, hrun]
        cases run (p.setPerturbations qs) with
        | error e => rfl
        | ok x =>
          simp only [Except.map, bind, Except.bind]
          have hb : Bank.append (bank.map (shiftParticle v)).dropLast
              ((shiftParticle v x.1).secondaries.map Particle.ofBorn) =
              (Bank.append bank.dropLast (x.1.secondaries.map Particle.ofBorn)).map
                (shiftParticle v) := by
            unfold Bank.append
            rw [List.map_append, List.map_dropLast, List.map_map]
            change List.map Particle.ofBorn (x.1.secondaries.map (shiftBorn v)) ++ _ = _
            rw [List.map_map]
            rfl
          rw [hb, shift_processBank hrun qs n]
          cases processBank run qs n
            (Bank.append bank.dropLast (x.1.secondaries.map Particle.ofBorn)) <;> rfl

theorem shift_history {P : Problem} (h : ∀ c ∈ P.world.cells, CanShift v c) (fuel e : ℕ) :
    (shiftProblem v P).history fuel e = (P.history fuel e).map (List.map (shiftParticle v)) := by
  unfold Problem.history
  have hs : (shiftProblem v P).source.sample ((shiftProblem v P).seed + e) =
      (P.source.sample (P.seed + e)).map (shiftBorn v) := by
    unfold Source.sample
    rw [bind_map]
    rfl
  rw [hs]
  cases P.source.sample (P.seed + e) with
  | error x => rfl
  | ok b =>
    simp only [Except.map, bind, Except.bind]
    have hb : processBank (transport (shiftProblem v P).method fuel (shiftProblem v P).world)
        (shiftProblem v P).perturbations fuel [Particle.ofBorn (shiftBorn v b)] = _ :=
      shift_processBank v (shift_transport v h P.method fuel) P.perturbations fuel
        [Particle.ofBorn b]
    rw [hb]
    cases processBank (transport P.method fuel P.world) P.perturbations fuel
        [Particle.ofBorn b] with
    | error x => rfl
    | ok l =>
      simp only [Except.map]
      rw [List.flatMap_map, List.map_flatMap]

/-! ### Scoring -/

theorem shift_scoreSensitivities (p : Particle) : ∀ (ss : List Sensitivity) (xs : List Pending),
    EstimatorProxy.scoreSensitivities (shiftParticle v p) (ss.map (shiftSensitivity v)) xs =
      EstimatorProxy.scoreSensitivities p ss xs
  | [], _ => rfl
  | _ :: _, [] => rfl
  | s :: ss, x :: xs => by
    have hg : (shiftSensitivity v s).getScore (shiftParticle v p) = s.getScore p := by
      unfold Sensitivity.getScore
      have : currentScore (shiftSensitivity v s).surface (shiftParticle v p) =
          currentScore s.surface p := by
        unfold currentScore shiftParticle
        dsimp only
        cases p.currentSurface <;> rfl
      rw [this]
      rfl
    rw [List.map_cons]
    unfold EstimatorProxy.scoreSensitivities
    rw [hg, shift_scoreSensitivities p ss xs]
    rfl

theorem shift_scoreAll (p : Particle) : ∀ (es : List Estimator) (xs : List EstimatorProxy),
    EstimatorSet.scoreAll (shiftParticle v p) (es.map (shiftEstimator v)) xs =
      EstimatorSet.scoreAll p es xs
  | [], _ => rfl
  | _ :: _, [] => rfl
  | e :: es, x :: xs => by
    have hg : EstimatorProxy.score (shiftEstimator v e) x (shiftParticle v p) =
        EstimatorProxy.score e x p := by
      unfold EstimatorProxy.score
      have : currentScore (shiftEstimator v e).surface (shiftParticle v p) =
          currentScore e.surface p := by
        unfold currentScore shiftParticle
        dsimp only
        cases p.currentSurface <;> rfl
      rw [this]
      have h2 : (shiftEstimator v e).sensitivities =
        e.sensitivities.map (shiftSensitivity v) := rfl
      rw [h2, shift_scoreSensitivities]
      rfl
    rw [List.map_cons]
    unfold EstimatorSet.scoreAll
    rw [hg, shift_scoreAll p es xs]

theorem shift_scoreHistory (es : List Estimator) : ∀ (ps : List Particle)
    (xs : List EstimatorProxy),
    EstimatorSet.scoreHistory (es.map (shiftEstimator v)) (ps.map (shiftParticle v)) xs =
      EstimatorSet.scoreHistory es ps xs
  | [], _ => rfl
  | p :: ps, xs => by
    rw [List.map_cons]
    unfold EstimatorSet.scoreHistory
    rw [shift_scoreAll]
    congr 1; funext xs'
    exact shift_scoreHistory es ps xs'

theorem shift_commitSensitivities : ∀ (ss : List Sensitivity) (xs : List Pending),
    EstimatorProxy.commitSensitivities (ss.map (shiftSensitivity v)) xs =
      (EstimatorProxy.commitSensitivities ss xs).map (List.map (shiftSensitivity v))
  | [], _ => rfl
  | _ :: _, [] => rfl
  | s :: ss, x :: xs => by
    rw [List.map_cons]
    unfold EstimatorProxy.commitSensitivities
    change x.commit s.base >>= _ = _
    rw [bind_map]
    congr 1; funext b
    rw [shift_commitSensitivities ss xs, bind_map]
    cases EstimatorProxy.commitSensitivities ss xs <;> rfl

theorem shift_commitAll : ∀ (es : List Estimator) (xs : List EstimatorProxy),
    EstimatorSet.commitAll (es.map (shiftEstimator v)) xs =
      (EstimatorSet.commitAll es xs).map (List.map (shiftEstimator v))
  | [], _ => rfl
  | _ :: _, [] => rfl
  | e :: es, x :: xs => by
    have hc : EstimatorProxy.commit (shiftEstimator v e) x =
        (EstimatorProxy.commit e x).map (shiftEstimator v) := by
      unfold EstimatorProxy.commit
      change x.pending.commit e.base >>= _ = _
      rw [bind_map]
      congr 1; funext b
      have h2 : (shiftEstimator v e).sensitivities =
        e.sensitivities.map (shiftSensitivity v) := rfl
      rw [h2, shift_commitSensitivities, bind_map]
      cases EstimatorProxy.commitSensitivities e.sensitivities x.sensitivities <;> rfl
    rw [List.map_cons]
    unfold EstimatorSet.commitAll
    rw [hc, shift_commitAll es xs]
    cases EstimatorProxy.commit e x with
    | error y => rfl
    | ok e' => cases EstimatorSet.commitAll es xs <;> rfl

theorem shift_addHistory (s : EstimatorSet) (ps : List Particle) :
    (shiftSet v s).addHistory (ps.map (shiftParticle v)) = (s.addHistory ps).map (shiftSet v) := by
  unfold EstimatorSet.addHistory
  have hp : (shiftSet v s).getProxy = s.getProxy := by
    unfold EstimatorSet.getProxy shiftSet
    dsimp only
    rw [List.map_map]
    apply List.map_congr_left
    intro e _
    simp only [Function.comp_apply, EstimatorProxy.create, shiftEstimator, List.map_map]
    rfl
  rw [hp]
  change EstimatorSet.scoreHistory (s.estimators.map (shiftEstimator v)) _ _ >>= _ = _
  rw [shift_scoreHistory, bind_map]
  congr 1; funext xs
  change EstimatorSet.commitAll (s.estimators.map (shiftEstimator v)) xs >>= _ = _
  rw [shift_commitAll, bind_map]
  cases EstimatorSet.commitAll s.estimators xs <;> rfl

theorem find_map_names {α : Type} {f : α → α} {name : α → String} (hf : ∀ a, name (f a) = name a)
    (s : String) (l : List α) :
    (l.map f).find? (fun a => s == name a) = (l.find? (fun a => s == name a)).map f := by
  rw [List.find?_map]
  congr 2
  funext a
  simp only [Function.comp_apply, hf]

theorem shift_addSensitivities (others : List Sensitivity) : ∀ ss : List Sensitivity,
    Estimator.addSensitivities (others.map (shiftSensitivity v)) (ss.map (shiftSensitivity v)) =
      (Estimator.addSensitivities others ss).map (List.map (shiftSensitivity v))
  | [] => rfl
  | s :: ss => by
    rw [List.map_cons]
    unfold Estimator.addSensitivities
    have := find_map_names (f := shiftSensitivity v) (name := fun o => o.base.name)
      (fun _ => rfl) s.base.name others
    change (match (others.map (shiftSensitivity v)).find? (fun o => s.base.name == o.base.name) with
      | none => _
      | some o => _) = _
    rw [this]
    cases others.find? (fun o => s.base.name == o.base.name) with
    | none => rfl
    | some o =>
      simp only [Option.map_some]
      change s.base.add o.base >>= _ = _
      rw [bind_map]
      congr 1; funext b
      rw [shift_addSensitivities others ss, bind_map]
      cases Estimator.addSensitivities others ss <;> rfl

theorem shift_addEstimators (others : List Estimator) : ∀ es : List Estimator,
    EstimatorSet.addEstimators (others.map (shiftEstimator v)) (es.map (shiftEstimator v)) =
      (EstimatorSet.addEstimators others es).map (List.map (shiftEstimator v))
  | [] => rfl
  | e :: es => by
    rw [List.map_cons]
    unfold EstimatorSet.addEstimators
    have := find_map_names (f := shiftEstimator v) (name := fun o => o.base.name)
      (fun _ => rfl) e.base.name others
    change (match (others.map (shiftEstimator v)).find? (fun o => e.base.name == o.base.name) with
      | none => _
      | some o => _) = _
    rw [this]
    cases others.find? (fun o => e.base.name == o.base.name) with
    | none => rfl
    | some o =>
      simp only [Option.map_some]
      have ha : (shiftEstimator v e).add (shiftEstimator v o) =
          (e.add o).map (shiftEstimator v) := by
        unfold Estimator.add
        change e.base.add o.base >>= _ = _
        rw [bind_map]
        congr 1; funext b
        change Estimator.addSensitivities (o.sensitivities.map (shiftSensitivity v))
          (e.sensitivities.map (shiftSensitivity v)) >>= _ = _
        rw [shift_addSensitivities, bind_map]
        cases Estimator.addSensitivities o.sensitivities e.sensitivities <;> rfl
      rw [ha, shift_addEstimators others es]
      cases e.add o with
      | error x => rfl
      | ok e' => cases EstimatorSet.addEstimators others es <;> rfl

theorem shift_setAdd (s o : EstimatorSet) :
    (shiftSet v s).add (shiftSet v o) = (s.add o).map (shiftSet v) := by
  unfold EstimatorSet.add
  change EstimatorSet.addEstimators (o.estimators.map (shiftEstimator v))
    (s.estimators.map (shiftEstimator v)) >>= _ = _
  rw [shift_addEstimators, bind_map]
  cases EstimatorSet.addEstimators o.estimators s.estimators <;> rfl

theorem shift_mergeAll : ∀ (xs : List EstimatorSet) (s : EstimatorSet),
    mergeAll (shiftSet v s) (xs.map (shiftSet v)) = (mergeAll s xs).map (shiftSet v)
  | [], _ => rfl
  | x :: xs, s => by
    rw [List.map_cons]
    unfold mergeAll
    rw [shift_setAdd, bind_map]
    cases s.add x with
    | error e => rfl
    | ok s' => exact shift_mergeAll xs s'

/-! ### Solving -/

/-- A worker of the moved problem. -/
noncomputable def shiftWorker (w : Worker) : Worker := { w with set := shiftSet v w.set }

/-- The workers of the moved problem. -/
noncomputable def shiftPool (s : Pool) : Pool := ⟨s.elapsed, s.workers.map (shiftWorker v)⟩

theorem shift_poolStep {N : ℕ} {history history' : ℕ → Res (List Particle)}
    (hh : ∀ e, history' e = (history e).map (List.map (shiftParticle v))) {s s' : Pool}
    (h : PoolStep N history s s') : PoolStep N history' (shiftPool v s) (shiftPool v s') := by
  cases h with
  | @fetch i w h1 h2 =>
    have h1' : (shiftPool v s).workers[i]? = some (shiftWorker v w) := by
      unfold shiftPool
      rw [List.getElem?_map, h1]
      rfl
    have := PoolStep.fetch (batchsize := N) (history := history') h1' h2
    unfold shiftPool at this ⊢
    dsimp only at this ⊢
    rw [List.map_set]
    exact this
  | @finish i e w scored set' h1 h2 h3 h4 =>
    have h1' : (shiftPool v s).workers[i]? = some (shiftWorker v w) := by
      unfold shiftPool
      rw [List.getElem?_map, h1]
      rfl
    have h3' : history' e = .ok (scored.map (shiftParticle v)) := by rw [hh, h3]; rfl
    have h4' : (shiftWorker v w).set.addHistory (scored.map (shiftParticle v)) =
        .ok (shiftSet v set') := by
      change (shiftSet v w.set).addHistory _ = _
      rw [shift_addHistory, h4]
      rfl
    have := PoolStep.finish (batchsize := N) (history := history') h1' h2 h3' h4'
    unfold shiftPool at this ⊢
    dsimp only at this ⊢
    rw [List.map_set]
    exact this

theorem shift_poolRun {N : ℕ} {history history' : ℕ → Res (List Particle)}
    (hh : ∀ e, history' e = (history e).map (List.map (shiftParticle v))) {s s' : Pool}
    (h : PoolRun N history s s') : PoolRun N history' (shiftPool v s) (shiftPool v s') := by
  induction h with
  | refl => exact .refl _
  | step _ h2 ih => exact .step ih (shift_poolStep v hh h2)

theorem shift_solve {P : Problem} (h : ∀ c ∈ P.world.cells, CanShift v c) {fuel k k' : ℕ}
    {r : EstimatorSet} (hr : SolveResult P fuel k r k') :
    SolveResult (shiftProblem v P) fuel k (shiftSet v r) k' := by
  obtain ⟨s, h1, h2, h3, h4⟩ := hr
  refine ⟨shiftPool v s, ?_, ?_, ?_, h4⟩
  · have := shift_poolRun v (shift_history v h fuel) h1
    have hs : shiftPool v (Pool.start P.init P.threads k) =
        Pool.start (shiftProblem v P).init (shiftProblem v P).threads k := by
      unfold shiftPool Pool.start
      rw [List.map_replicate]
      rfl
    rw [hs] at this
    exact this
  · intro w hw
    obtain ⟨w', hw', rfl⟩ := List.mem_map.1 hw
    exact h2 w' hw'
  · have := shift_mergeAll v (s.workers.map Worker.set) P.init
    rw [h3] at this
    change mergeAll (shiftSet v P.init) ((s.workers.map (shiftWorker v)).map Worker.set) = _
    rw [List.map_map]
    rw [List.map_map] at this
    exact this

/-! ### Moving back -/

/-- The opposite displacement. -/
noncomputable def back : Point := ⟨-v.x, -v.y, -v.z⟩

theorem shift_back_point (p : Point) : p + v + back v = p := by
  change Point.mk _ _ _ = p
  ext <;> exact add_neg_cancel_right _ _

theorem shift_back_surface (s : SurfaceObj) : shiftSurface (back v) (shiftSurface v s) = s := by
  rcases s with ⟨i, n, ⟨c, r⟩ | c | r⟩
  · simp only [shiftSurface, shiftShape, shift_back_point]
  · simp only [shiftSurface, shiftShape]
    congr 2
    exact add_neg_cancel_right _ _
  · rfl

theorem shift_back_field (f : ScalarField) : shiftField (back v) (shiftField v f) = f := by
  rcases f with c | ⟨u, l, g, b⟩
  · rfl
  · simp only [shiftField]
    congr 1
    change b - (g.x * v.x + g.y * v.y + g.z * v.z) - (g.x * -v.x + g.y * -v.y + g.z * -v.z) = b
    ring

theorem shift_back_cell (c : Cell) : shiftCell (back v) (shiftCell v c) = c := by
  rcases c with ⟨n, ss, m, t⟩
  simp only [shiftCell, shift_back_field, List.map_map]
  congr 1
  conv_rhs => rw [← List.map_id ss]
  apply List.map_congr_left
  intro e _
  simp only [Function.comp_apply, shift_back_surface, id]

theorem shift_back_set (s : EstimatorSet) : shiftSet (back v) (shiftSet v s) = s := by
  rcases s with ⟨es, w⟩
  simp only [shiftSet, List.map_map]
  congr 1
  conv_rhs => rw [← List.map_id es]
  apply List.map_congr_left
  rintro ⟨b, s, ss⟩ _
  simp only [Function.comp_apply, shiftEstimator, shift_back_surface, id, List.map_map]
  congr 1
  conv_rhs => rw [← List.map_id ss]
  apply List.map_congr_left
  rintro ⟨b', s', q⟩ _
  simp only [Function.comp_apply, shiftSensitivity, shift_back_surface, id]

theorem shift_back_problem (P : Problem) : shiftProblem (back v) (shiftProblem v P) = P := by
  rcases P with ⟨⟨ss, ns, ms, t, cs⟩, qs, b, sd, i, th, m, src⟩
  simp only [shiftProblem, shiftWorld, shiftSource, shift_back_set, shift_back_field,
    shift_back_point, List.map_map]
  congr 2
  · conv_rhs => rw [← List.map_id ss]
    apply List.map_congr_left
    intro s _
    simp only [Function.comp_apply, shift_back_surface, id]
  · conv_rhs => rw [← List.map_id cs]
    apply List.map_congr_left
    intro s _
    simp only [Function.comp_apply, shift_back_cell, id]

theorem canShift_back {c : Cell} (h : CanShift v c) : CanShift (back v) (shiftCell v c) := by
  rcases h with h | h
  · left
    exact ⟨by change -v.y = 0; rw [h.1, neg_zero], by change -v.z = 0; rw [h.2, neg_zero]⟩
  · right
    intro e he r
    obtain ⟨e', he', rfl⟩ := List.mem_map.1 he
    have := h e' he'
    rcases hs : e'.1.shape with _ | _ | r'
    · simp [shiftSurface, shiftShape, hs]
    · simp [shiftSurface, shiftShape, hs]
    · exact absurd hs (this r')

/-! ### Output -/

theorem shift_text (n : ℕ) (s : EstimatorSet) : outputText n (shiftSet v s) = outputText n s := by
  unfold outputText EstimatorSet.toText shiftSet
  dsimp only
  rw [List.flatMap_map]
  congr 2
  funext e
  unfold Estimator.toText shiftEstimator
  dsimp only
  rw [List.flatMap_map]
  rfl

end Minimc
