import Verif.Lemmas.Driver
import Verif.Props.Score
import Verif.Props.Transport

/-! # Properties C30 to C33: histories, workers and solving -/

namespace Minimc.Props

open Classical Spec

/-! ## C30 -/

/-- Processing a bank that returns has transported every particle of the families exactly once,
and nothing else. -/
theorem C30_exactly_once {run : Particle → Res (Particle × List Particle)}
    {qs : List Perturbation} {n : ℕ} {bank : Bank} {log : List (Particle × List Particle)}
    (h : processBank run qs n bank = .ok log) :
    ∃ l, Forest (fun p r => run p = .ok r) (fun p => p.setPerturbations qs) bank l ∧
      log.Perm l := by
  induction n generalizing bank log with
  | zero =>
    rcases List.eq_nil_or_concat' bank with rfl | ⟨init, p, rfl⟩
    · rw [processBank_nil] at h
      cases h
      exact ⟨[], .nil, .refl _⟩
    · rw [processBank_zero] at h
      cases h
  | succ n ih =>
    rcases List.eq_nil_or_concat' bank with rfl | ⟨init, p, rfl⟩
    · rw [processBank_nil] at h
      cases h
      exact ⟨[], .nil, .refl _⟩
    · rw [processBank_concat] at h
      simp only [res_bind_ok] at h
      obtain ⟨⟨last, scored⟩, h1, rest, h2, h3⟩ := h
      simp only [Except.ok.injEq] at h3
      subst h3
      obtain ⟨l, hl, hperm⟩ := ih h2
      obtain ⟨la, lb, rfl, ha, hb⟩ := Forest.append_inv hl
      refine ⟨_, Forest.append hb (.cons h1 ha .nil), ?_⟩
      rw [List.append_nil]
      refine (List.Perm.cons _ (hperm.trans List.perm_append_comm)).trans ?_
      exact List.perm_middle.symm

/-- Whenever the families are finite, processing finishes. -/
theorem C30_finishes {run : Particle → Res (Particle × List Particle)}
    {qs : List Perturbation} {bank : Bank} {l : List (Particle × List Particle)}
    (h : Forest (fun p r => run p = .ok r) (fun p => p.setPerturbations qs) bank l) (n : ℕ)
    (hn : l.length ≤ n) : ∃ log, processBank run qs n bank = .ok log ∧ log.Perm l := by
  induction n generalizing bank l with
  | zero =>
    cases h with
    | nil => exact ⟨[], processBank_nil _, .refl _⟩
    | cons _ _ _ => simp at hn
  | succ n ih =>
    rcases List.eq_nil_or_concat' bank with rfl | ⟨init, p, rfl⟩
    · cases h
      exact ⟨[], processBank_nil _, .refl _⟩
    · obtain ⟨la, lb, rfl, ha, hb⟩ := Forest.append_inv h
      cases hb with
      | cons h1 h2 h3 =>
        rename_i last scored below beside
        cases h3
        obtain ⟨log, hlog, hperm⟩ := ih (Forest.append h2 ha) (by
          simp only [List.length_append, List.length_cons, List.append_nil] at hn ⊢
          omega)
        refine ⟨(p.setPerturbations qs, scored) :: log, ?_, ?_⟩
        · rw [processBank_concat, h1]
          simp only [bind, Except.bind, hlog]
        · rw [List.append_nil]
          exact (List.Perm.cons _ (hperm.trans List.perm_append_comm)).trans List.perm_middle.symm

/-- The families a history consists of do not depend on how long one waits. -/
theorem C30_family_unique {run : Particle → Res (Particle × List Particle)}
    {qs : List Perturbation} {bank : Bank} {l l' : List (Particle × List Particle)}
    (h : Forest (fun p r => run p = .ok r) (fun p => p.setPerturbations qs) bank l)
    (h' : Forest (fun p r => run p = .ok r) (fun p => p.setPerturbations qs) bank l') : l = l' :=
  Forest.unique (fun p r r' h1 h2 => by rw [h1] at h2; exact Except.ok.inj h2) h h'

/-- Transport of the particle ends as described, however long it takes. -/
def TransportEnds (P : Problem) (p : Particle) (r : Particle × List Particle) : Prop :=
  ∃ fuel, transport P.method fuel P.world p = .ok r

/-- A history runs to its end exactly if its family is finite: the source particle and all its
descendants, of which each particle's transport ends; the states scored are those of these
particles. -/
theorem C30_history_iff {P : Problem} {e : ℕ} {born : Born}
    (hs : P.source.sample (P.seed + e) = .ok born) :
    (∃ fuel states, P.history fuel e = .ok states) ↔
      ∃ l, Forest (TransportEnds P) (fun p => p.setPerturbations P.perturbations)
        [Particle.ofBorn born] l := by
  constructor
  · rintro ⟨fuel, states, h⟩
    unfold Problem.history at h
    simp only [res_bind_ok, hs, Except.ok.injEq, exists_eq_left'] at h
    obtain ⟨log, h1, _⟩ := h
    obtain ⟨l, hl, _⟩ := C30_exactly_once h1
    exact ⟨l, Forest.imp (fun p r hr => ⟨fuel, hr⟩) hl⟩
  · rintro ⟨l, hl⟩
    have key : ∀ {bank : List Particle} {l : List (Particle × List Particle)},
        Forest (TransportEnds P) (fun p => p.setPerturbations P.perturbations) bank l →
        ∃ N, ∀ fuel, N ≤ fuel → Forest (fun p r => transport P.method fuel P.world p = .ok r)
          (fun p => p.setPerturbations P.perturbations) bank l := by
      intro bank l h
      induction h with
      | nil => exact ⟨0, fun _ _ => .nil⟩
      | cons h1 _ _ ih2 ih3 =>
        obtain ⟨f, hf⟩ := h1
        obtain ⟨n, hn⟩ := ih2
        obtain ⟨m, hm⟩ := ih3
        refine ⟨max f (max n m), fun fuel hfuel => .cons ?_ (hn fuel (by omega)) (hm fuel (by omega))⟩
        exact (transport_le (show f ≤ fuel by omega) _ _ _).ok hf
    obtain ⟨N, hN⟩ := key hl
    obtain ⟨log, hlog, _⟩ := C30_finishes (hN (max N l.length) (by omega)) (max N l.length)
      (by omega)
    refine ⟨max N l.length, log.flatMap Prod.snd, ?_⟩
    unfold Problem.history
    simp only [res_bind_ok, hs, Except.ok.injEq, exists_eq_left']
    exact ⟨log, hlog, rfl⟩

/-- The states scored in a history are the states that the particles of its family go through. -/
theorem C30_history_states {P : Problem} {e fuel : ℕ} {states : List Particle}
    (h : P.history fuel e = .ok states) :
    ∃ born l, P.source.sample (P.seed + e) = .ok born ∧
      Forest (TransportEnds P) (fun p => p.setPerturbations P.perturbations)
        [Particle.ofBorn born] l ∧ states.Perm (l.flatMap Prod.snd) := by
  unfold Problem.history at h
  simp only [res_bind_ok, Except.ok.injEq] at h
  obtain ⟨born, hs, log, h1, rfl⟩ := h
  obtain ⟨l, hl, hperm⟩ := C30_exactly_once h1
  exact ⟨born, l, hs, Forest.imp (fun p r hr => ⟨fuel, hr⟩) hl, hperm.flatMap_right _⟩

/-- Instance: a particle with two secondaries, one of which has another. -/
example : ∃ (run : Particle → Res (Particle × List Particle)) (root : Particle)
    (l : List (Particle × List Particle)), l.length = 4 ∧
    Forest (fun p r => run p = .ok r) (fun p => p.setPerturbations []) [root] l := by
  let b (x : ℝ) : Born := ⟨⟨x, 0, 0⟩, ⟨1, 0, 0⟩, .group 1, .neutron, 1, none⟩
  let kids (x : ℝ) : List Born := if x = 0 then [b 1, b 2] else if x = 1 then [b 3] else []
  have k0 : kids 0 = [b 1, b 2] := by simp [kids]
  have k1 : kids 1 = [b 3] := by simp [kids]
  have k2 : kids 2 = [] := by simp [kids]
  have k3 : kids 3 = [] := by simp [kids]
  let run : Particle → Res (Particle × List Particle) := fun p => .ok
    ({ p with secondaries := kids p.position.x }, [p])
  have node : ∀ (x : ℝ) (below : List (Particle × List Particle)),
      Forest (fun p r => run p = .ok r) (fun p => p.setPerturbations [])
        ((kids x).map Particle.ofBorn) below →
      Forest (fun p r => run p = .ok r) (fun p => p.setPerturbations []) [Particle.ofBorn (b x)]
        (((Particle.ofBorn (b x)).setPerturbations [],
          [(Particle.ofBorn (b x)).setPerturbations []]) :: (below ++ [])) := by
    intro x below h
    exact .cons (last := { (Particle.ofBorn (b x)).setPerturbations [] with
      secondaries := kids x }) rfl h .nil
  have h3 := node 3 [] (by rw [k3]; exact .nil)
  have h2 := node 2 [] (by rw [k2]; exact .nil)
  have h1 := node 1 _ (by rw [k1]; exact h3)
  have h0 := node 0 _ (by rw [k0]; exact Forest.append h1 h2)
  exact ⟨run, _, _, rfl, h0⟩

/-! ## C31 -/

/-- What holds at all times of the pool started with the counter at `e0`. -/
structure PoolInv (N e0 : ℕ) (s : Pool) : Prop where
  le : e0 ≤ s.elapsed
  nodup : (s.workers.flatMap claimed).Nodup
  mem : ∀ e, e ∈ s.workers.flatMap claimed ↔ e0 ≤ e ∧ e < s.elapsed ∧ e < N
  stopped : ∀ w ∈ s.workers, w.status = .stopped → N ≤ s.elapsed

theorem poolInv_start (init : EstimatorSet) (threads N e0 : ℕ) :
    PoolInv N e0 (Pool.start init threads e0) := by
  have h : (Pool.start init threads e0).workers.flatMap claimed = [] := by
    unfold Pool.start
    rw [List.flatMap_eq_nil_iff]
    intro w hw
    rw [List.eq_of_mem_replicate hw]
    rfl
  refine ⟨le_rfl, by rw [h]; exact List.nodup_nil, ?_, ?_⟩
  · intro e
    rw [h]
    simp only [List.not_mem_nil, false_iff]
    rintro ⟨h1, h2, _⟩
    exact absurd h2 (not_lt.2 h1)
  · intro w hw hst
    rw [List.eq_of_mem_replicate hw] at hst
    cases hst

theorem poolInv_step {N e0 : ℕ} {history : ℕ → Res (List Particle)} {s s' : Pool}
    (h : PoolStep N history s s') (hi : PoolInv N e0 s) : PoolInv N e0 s' := by
  cases h with
  | @fetch i w hw hst =>
    obtain ⟨x, y, e1, e2⟩ := set_split hw
      { w with status := if s.elapsed ≥ N then .stopped else .working s.elapsed }
    have hcw : claimed w = w.done := by unfold claimed; rw [hst]; simp [WorkerStatus.numbers]
    have hold : s.workers.flatMap claimed = x.flatMap claimed ++ (w.done ++ y.flatMap claimed) := by
      rw [e1, List.flatMap_append, List.flatMap_cons, hcw]
    by_cases hge : s.elapsed ≥ N
    · rw [if_pos hge] at e2 ⊢
      have hnew : (s.workers.set i { w with status := .stopped }).flatMap claimed =
          s.workers.flatMap claimed := by
        rw [e2, hold, List.flatMap_append, List.flatMap_cons]
        simp [claimed, WorkerStatus.numbers]
      refine ⟨Nat.le_succ_of_le hi.le, by rw [hnew]; exact hi.nodup, ?_, ?_⟩
      · intro e
        dsimp only
        rw [hnew, hi.mem]
        have := hi.le
        constructor <;> rintro ⟨h1, h2, h3⟩ <;> exact ⟨h1, by omega, h3⟩
      · intro _ _ _
        dsimp only
        omega
    · rw [if_neg hge] at e2 ⊢
      push Not at hge
      have hnew : ((s.workers.set i { w with status := .working s.elapsed }).flatMap claimed).Perm
          (s.elapsed :: s.workers.flatMap claimed) := by
        rw [e2, hold, List.flatMap_append, List.flatMap_cons]
        have : claimed { w with status := .working s.elapsed } = w.done ++ [s.elapsed] := rfl
        rw [this, List.append_assoc, List.singleton_append]
        refine (List.Perm.append_left _ List.perm_middle).trans ?_
        exact List.perm_middle
      refine ⟨Nat.le_succ_of_le hi.le, ?_, ?_, ?_⟩
      · rw [hnew.nodup_iff, List.nodup_cons]
        exact ⟨fun hm => absurd ((hi.mem _).1 hm).2.1 (lt_irrefl _), hi.nodup⟩
      · intro e
        dsimp only
        rw [hnew.mem_iff, List.mem_cons, hi.mem]
        have := hi.le
        constructor
        · rintro (rfl | ⟨h1, h2, h3⟩)
          · exact ⟨hi.le, Nat.lt_succ_self _, hge⟩
          · exact ⟨h1, by omega, h3⟩
        · rintro ⟨h1, h2, h3⟩
          by_cases he : e = s.elapsed
          · exact Or.inl he
          · exact Or.inr ⟨h1, by omega, h3⟩
      · intro v hv hvs
        dsimp only at hv
        rw [e2] at hv
        rcases List.mem_append.1 hv with hv | hv
        · exact absurd (hi.stopped v (by rw [e1]; simp [hv]) hvs) (not_le.2 hge)
        · rcases List.mem_cons.1 hv with rfl | hv
          · cases hvs
          · exact absurd (hi.stopped v (by rw [e1]; simp [hv]) hvs) (not_le.2 hge)
  | @finish i e w scored set' hw hst hh ha =>
    obtain ⟨x, y, e1, e2⟩ := set_split hw ⟨set', .ready, w.done ++ [e]⟩
    have hnew : (s.workers.set i ⟨set', .ready, w.done ++ [e]⟩).flatMap claimed =
        s.workers.flatMap claimed := by
      rw [e2, e1, List.flatMap_append, List.flatMap_cons, List.flatMap_append, List.flatMap_cons]
      simp [claimed, WorkerStatus.numbers, hst]
    refine ⟨hi.le, by rw [hnew]; exact hi.nodup, by intro e'; rw [hnew]; exact hi.mem e', ?_⟩
    intro v hv hvs
    dsimp only at hv
    rw [e2] at hv
    rcases List.mem_append.1 hv with hv | hv
    · exact hi.stopped v (by rw [e1]; simp [hv]) hvs
    · rcases List.mem_cons.1 hv with rfl | hv
      · cases hvs
      · exact hi.stopped v (by rw [e1]; simp [hv]) hvs

theorem poolInv_run {N e0 : ℕ} {history : ℕ → Res (List Particle)} {s s' : Pool}
    (h : PoolRun N history s s') (hi : PoolInv N e0 s) : PoolInv N e0 s' := by
  induction h with
  | refl => exact hi
  | step _ h2 ih => exact poolInv_step h2 ih

theorem workers_length_run {N : ℕ} {history : ℕ → Res (List Particle)} {s s' : Pool}
    (h : PoolRun N history s s') : s'.workers.length = s.workers.length := by
  induction h with
  | refl => rfl
  | step _ h2 ih => cases h2 <;> simpa using ih

/-- At every moment of every schedule, no history number has been given out twice, and the numbers
given out are exactly those below the counter and the batch size. -/
theorem C31_no_history_twice {N threads : ℕ} {history : ℕ → Res (List Particle)}
    {init : EstimatorSet} {s : Pool} (h : PoolRun N history (Pool.start init threads 0) s) :
    (s.workers.flatMap claimed).Nodup ∧
      ∀ e, e ∈ s.workers.flatMap claimed ↔ e < s.elapsed ∧ e < N := by
  have hi := poolInv_run h (poolInv_start init threads N 0)
  exact ⟨hi.nodup, fun e => by rw [hi.mem]; simp⟩

/-- When all workers have stopped, the histories they have completed are 0 to N - 1, each once. -/
theorem C31_all_histories_once {N threads : ℕ} {history : ℕ → Res (List Particle)}
    {init : EstimatorSet} {s : Pool} (h : PoolRun N history (Pool.start init threads 0) s)
    (hf : s.Finished) (ht : 1 ≤ threads) :
    (s.workers.flatMap Worker.done).Perm (List.range N) ∧ N ≤ s.elapsed := by
  have hi := poolInv_run h (poolInv_start init threads N 0)
  have hN : N ≤ s.elapsed := by
    have hl := workers_length_run h
    have hpos : 0 < s.workers.length := by rw [hl]; simp [Pool.start]; omega
    obtain ⟨w, hw⟩ := List.exists_mem_of_length_pos hpos
    exact hi.stopped w hw (hf w hw)
  have heq : s.workers.flatMap Worker.done = s.workers.flatMap claimed := by
    apply List.flatMap_congr
    intro w hw
    unfold claimed
    rw [hf w hw]
    simp [WorkerStatus.numbers]
  refine ⟨?_, hN⟩
  rw [heq]
  rw [List.perm_ext_iff_of_nodup hi.nodup List.nodup_range]
  intro e
  rw [hi.mem, List.mem_range]
  constructor
  · exact fun h => h.2.2
  · exact fun h => ⟨Nat.zero_le _, by omega, h⟩

/-- Remaining work: strictly decreasing in every step. -/
def workLeft (N : ℕ) (s : Pool) : ℕ :=
  3 * (N - s.elapsed) + (s.workers.map (fun w => match w.status with
    | .ready => 1
    | .working _ => 2
    | .stopped => 0)).sum

/-- Every schedule comes to an end: there are no infinite executions. -/
theorem C31_every_schedule_ends (N : ℕ) (history : ℕ → Res (List Particle)) :
    WellFounded (fun s' s : Pool => PoolStep N history s s') := by
  apply Subrelation.wf (r := (measure (workLeft N)).rel) _ (measure (workLeft N)).wf
  intro s' s h
  change workLeft N s' < workLeft N s
  cases h with
  | @fetch i w hw hst =>
    obtain ⟨x, y, e1, e2⟩ := set_split hw
      { w with status := if s.elapsed ≥ N then .stopped else .working s.elapsed }
    unfold workLeft
    dsimp only
    rw [e2, e1]
    simp only [List.map_append, List.map_cons, List.sum_append, List.sum_cons, hst]
    by_cases hge : s.elapsed ≥ N
    · rw [if_pos hge]
      simp only
      omega
    · rw [if_neg hge]
      simp only
      omega
  | @finish i e w scored set' hw hst hh ha =>
    obtain ⟨x, y, e1, e2⟩ := set_split hw ⟨set', .ready, w.done ++ [e]⟩
    unfold workLeft
    dsimp only
    rw [e2, e1]
    simp only [List.map_append, List.map_cons, List.sum_append, List.sum_cons, hst]
    omega

/-- The estimators of the problem are as a driver creates them: their scores are zero. -/
structure FreshSet (s : EstimatorSet) : Prop where
  shaped : s.Shaped
  bins : s.BinsCreated
  zero : s = s.withTallies 0

theorem canScore_set_withTallies {s : EstimatorSet} (t : Tallies) (p : Particle) :
    CanScore (s.withTallies t) p ↔ CanScore s p := by
  rw [canScore_iff, canScore_iff]
  unfold EstimatorSet.withTallies
  simp only [List.mem_map, forall_exists_index, and_imp, forall_apply_eq_imp_iff₂]
  exact forall₂_congr (fun e _ => canScore_withTallies _ p)

/-- What holds for each worker: its set holds the contributions of the histories it has
completed. -/
structure WorkerInv (init : EstimatorSet) (history : ℕ → Res (List Particle)) (c : ℕ → Tallies)
    (w : Worker) : Prop where
  ran : ∀ e ∈ w.done, ∃ h, history e = .ok h ∧ ∀ p ∈ h, CanScore init p
  set : w.set = init.withTallies ((w.done.map c).sum)

theorem workerInv_run {N : ℕ} {history : ℕ → Res (List Particle)} {init : EstimatorSet}
    (hb : init.BinsCreated) {c : ℕ → Tallies}
    (hc : ∀ e h, history e = .ok h → Contribution init h (c e)) {s s' : Pool}
    (h : PoolRun N history s s') (hi : ∀ w ∈ s.workers, WorkerInv init history c w) :
    ∀ w ∈ s'.workers, WorkerInv init history c w := by
  induction h with
  | refl => exact hi
  | @step s₁ s₂ _ h2 ih =>
    cases h2 with
    | @fetch i w hw hst =>
      obtain ⟨x, y, e1, e2⟩ := set_split hw
        { w with status := if s₁.elapsed ≥ N then .stopped else .working s₁.elapsed }
      intro v hv
      dsimp only at hv
      rw [e2] at hv
      rcases List.mem_append.1 hv with hv | hv
      · exact ih v (by rw [e1]; simp [hv])
      · rcases List.mem_cons.1 hv with rfl | hv
        · have := ih w (by rw [e1]; simp)
          exact ⟨this.ran, this.set⟩
        · exact ih v (by rw [e1]; simp [hv])
    | @finish i e w scored set' hw hst hh ha =>
      obtain ⟨x, y, e1, e2⟩ := set_split hw ⟨set', .ready, w.done ++ [e]⟩
      intro v hv
      dsimp only at hv
      rw [e2] at hv
      rcases List.mem_append.1 hv with hv | hv
      · exact ih v (by rw [e1]; simp [hv])
      · rcases List.mem_cons.1 hv with rfl | hv
        · have hw' := ih w (by rw [e1]; simp)
          have hcan := addHistory_inv ha
          rw [hw'.set] at hcan ha
          have hcan' : ∀ p ∈ scored, CanScore init p :=
            fun p hp => (canScore_set_withTallies _ p).1 (hcan p hp)
          refine ⟨?_, ?_⟩
          · intro e' he'
            rcases List.mem_append.1 he' with he' | he'
            · exact hw'.ran e' he'
            · rw [List.mem_singleton.1 he']
              exact ⟨scored, hh, hcan'⟩
          · rw [addHistory_ok hb hcan' _ _ (hc e scored hh)] at ha
            simp only [Except.ok.injEq] at ha
            rw [← ha]
            simp
        · exact ih v (by rw [e1]; simp [hv])

theorem workerInv_start {init : EstimatorSet} (hz : init = init.withTallies 0)
    (history : ℕ → Res (List Particle)) (c : ℕ → Tallies) (threads e0 : ℕ) :
    ∀ w ∈ (Pool.start init threads e0).workers, WorkerInv init history c w := by
  intro w hw
  rw [List.eq_of_mem_replicate hw]
  exact ⟨by simp, by simpa using hz⟩

/-- As long as not all workers have stopped, some worker can go on, provided that histories run
to their end and can be scored. -/
theorem C31_progress {N threads : ℕ} {history : ℕ → Res (List Particle)} {init : EstimatorSet}
    (hinit : FreshSet init)
    (hh : ∀ e < N, ∃ h, history e = .ok h ∧ ∀ p ∈ h, CanScore init p) {s : Pool}
    (h : PoolRun N history (Pool.start init threads 0) s) (hf : ¬ s.Finished) :
    ∃ s', PoolStep N history s s' := by
  unfold Pool.Finished at hf
  push Not at hf
  obtain ⟨w, hw, hst⟩ := hf
  obtain ⟨i, hi⟩ := List.mem_iff_getElem?.1 hw
  rcases hs : w.status with _ | e | _
  · exact ⟨_, .fetch hi hs⟩
  · have hinv := poolInv_run h (poolInv_start init threads N 0)
    have he : e < N := ((hinv.mem e).1 (List.mem_flatMap.2 ⟨w, hw, by
      unfold claimed; rw [hs]; simp [WorkerStatus.numbers]⟩)).2.2
    obtain ⟨states, h1, h2⟩ := hh e he
    have hex : ∀ e, ∃ t : Tallies, ∀ h, history e = .ok h → Contribution init h t := by
      intro e
      rcases hx : history e with er | x
      · exact ⟨0, fun h hcon => by cases hcon⟩
      · obtain ⟨t, ht⟩ := contribution_exists hinit.shaped.names hinit.shaped.sensitivityNames x
        exact ⟨t, fun h hcon => by cases hcon; exact ht⟩
    choose c hc using hex
    have hwi := workerInv_run hinit.bins hc h (workerInv_start hinit.zero history c threads 0) w hw
    have hadd := addHistory_ok hinit.bins h2 ((w.done.map c).sum) (c e) (hc e states h1)
    rw [← hwi.set] at hadd
    exact ⟨_, .finish hi hs h1 hadd⟩
  · exact absurd hs hst

theorem PoolRun.trans {N : ℕ} {history : ℕ → Res (List Particle)} {s s' s'' : Pool}
    (h1 : PoolRun N history s s') (h2 : PoolRun N history s' s'') : PoolRun N history s s'' := by
  induction h2 with
  | refl => exact h1
  | step _ h ih => exact .step ih h

/-- Every execution so far can be, and if continued will be, brought to the end: a state where all
workers have stopped is reachable from every reachable state. -/
theorem C31_every_worker_stops {N threads : ℕ} {history : ℕ → Res (List Particle)}
    {init : EstimatorSet} (hinit : FreshSet init)
    (hh : ∀ e < N, ∃ h, history e = .ok h ∧ ∀ p ∈ h, CanScore init p) {s : Pool}
    (h : PoolRun N history (Pool.start init threads 0) s) :
    ∃ s', PoolRun N history s s' ∧ s'.Finished := by
  revert h
  refine (C31_every_schedule_ends N history).induction
    (C := fun s => PoolRun N history (Pool.start init threads 0) s →
      ∃ s', PoolRun N history s s' ∧ s'.Finished) s ?_
  intro s ih h
  by_cases hf : s.Finished
  · exact ⟨s, .refl s, hf⟩
  · obtain ⟨s', hs'⟩ := C31_progress hinit hh h hf
    obtain ⟨s'', h1, h2⟩ := ih s' hs' (.step h hs')
    exact ⟨s'', PoolRun.trans (.step (.refl s) hs') h1, h2⟩

/-! ## C32 -/

theorem mergeAll_workers {init : EstimatorSet} (hinit : FreshSet init)
    {history : ℕ → Res (List Particle)} {c : ℕ → Tallies} {ws : List Worker}
    (h : ∀ w ∈ ws, WorkerInv init history c w) :
    mergeAll init (ws.map Worker.set) =
      .ok (init.withTallies (((ws.flatMap Worker.done).map c).sum)) := by
  have h1 : ws.map Worker.set =
      (ws.map (fun w => (init, (w.done.map c).sum))).map
        (fun o : EstimatorSet × Tallies => o.1.withTallies o.2) := by
    rw [List.map_map]
    exact List.map_congr_left (fun w hw => (h w hw).set)
  have h2 := mergeAll_withTallies (s := init) (ws.map (fun w => (init, (w.done.map c).sum))) 0
    (by
      intro o ho
      obtain ⟨w, _, rfl⟩ := List.mem_map.1 ho
      exact ⟨compatible_refl hinit.shaped, allNamed_refl _⟩)
  rw [← h1, ← hinit.zero] at h2
  rw [h2, zero_add, List.map_map]
  congr 2
  induction ws with
  | nil => rfl
  | cons w ws ih =>
    rw [List.map_cons, List.sum_cons, List.flatMap_cons, List.map_append, List.sum_append]
    rw [ih (fun v hv => h v (List.mem_cons_of_mem _ hv))]
    · rfl
    · rw [List.map_map]
      exact List.map_congr_left (fun w' hw' => (h w' (List.mem_cons_of_mem _ hw')).set)
    · have h3 := mergeAll_withTallies (s := init) (ws.map (fun w => (init, (w.done.map c).sum))) 0
        (by
          intro o ho
          obtain ⟨w, _, rfl⟩ := List.mem_map.1 ho
          exact ⟨compatible_refl hinit.shaped, allNamed_refl _⟩)
      have h4 : ws.map Worker.set =
          (ws.map (fun w => (init, (w.done.map c).sum))).map
            (fun o : EstimatorSet × Tallies => o.1.withTallies o.2) := by
        rw [List.map_map]
        exact List.map_congr_left (fun w' hw' => (h w' (List.mem_cons_of_mem _ hw')).set)
      rw [← h4, ← hinit.zero] at h3
      exact h3

theorem afterHistories_ok {init : EstimatorSet} (hb : init.BinsCreated)
    (c : List Particle → Tallies) (hc : ∀ h, Contribution init h (c h)) :
    ∀ (hs : List (List Particle)) (t : Tallies), (∀ h ∈ hs, ∀ p ∈ h, CanScore init p) →
      afterHistories (init.withTallies t) hs = .ok (init.withTallies (t + (hs.map c).sum))
  | [], t, _ => by simp [afterHistories]
  | a :: hs, t, h => by
    unfold afterHistories
    rw [addHistory_ok hb (h a List.mem_cons_self) t (c a) (hc a)]
    simp only [bind, Except.bind]
    rw [afterHistories_ok hb c hc hs (t + c a) (fun x hx => h x (List.mem_cons_of_mem _ hx)),
      List.map_cons, List.sum_cons, add_assoc]

/-- Whatever the number of threads and the schedule, `Solve` returns what running the histories 0
to batchsize - 1 one after another gives. -/
theorem C32_as_if_sequential {P : Problem} {fuel elapsed' : ℕ} {r : EstimatorSet}
    (hinit : FreshSet P.init) (ht : 1 ≤ P.threads) (h : SolveResult P fuel 0 r elapsed') :
    ∃ hists : List (List Particle), hists.length = P.batchsize ∧
      (∀ e x, hists[e]? = some x → P.history fuel e = .ok x) ∧
      afterHistories P.init hists = .ok r := by
  obtain ⟨s, hrun, hf, hm, _⟩ := h
  obtain ⟨hperm, _⟩ := C31_all_histories_once hrun hf ht
  choose cc hcc using contribution_exists hinit.shaped.names hinit.shaped.sensitivityNames
  let c : ℕ → Tallies := fun e => match P.history fuel e with
    | .ok h => cc h
    | .error _ => 0
  have hc : ∀ e h, P.history fuel e = .ok h → Contribution P.init h (c e) := by
    intro e h hh
    simp only [c, hh]
    exact hcc h
  have hw := workerInv_run hinit.bins hc hrun
    (workerInv_start hinit.zero (P.history fuel) c P.threads 0)
  rw [mergeAll_workers hinit hw] at hm
  simp only [Except.ok.injEq] at hm
  have hran : ∀ e < P.batchsize, ∃ h, P.history fuel e = .ok h ∧ ∀ p ∈ h, CanScore P.init p := by
    intro e he
    have : e ∈ s.workers.flatMap Worker.done := hperm.mem_iff.2 (List.mem_range.2 he)
    obtain ⟨w, hwm, hew⟩ := List.mem_flatMap.1 this
    exact (hw w hwm).ran e hew
  let hist : ℕ → List Particle := fun e => match P.history fuel e with
    | .ok h => h
    | .error _ => []
  have hhist : ∀ e < P.batchsize, P.history fuel e = .ok (hist e) := by
    intro e he
    obtain ⟨h, hh, _⟩ := hran e he
    simp only [hist, hh]
  refine ⟨(List.range P.batchsize).map hist, by simp, ?_, ?_⟩
  · intro e x hx
    rw [List.getElem?_map] at hx
    obtain ⟨e', he', rfl⟩ := Option.map_eq_some_iff.1 hx
    obtain ⟨hlt, he''⟩ := List.getElem?_eq_some_iff.1 he'
    simp only [List.length_range] at hlt
    simp only [List.getElem_range] at he''
    rw [← he'']
    exact hhist e hlt
  · have := afterHistories_ok hinit.bins cc hcc ((List.range P.batchsize).map hist) 0 (by
      intro h hh p hp
      obtain ⟨e, he, rfl⟩ := List.mem_map.1 hh
      obtain ⟨h', hh', hcan⟩ := hran e (List.mem_range.1 he)
      have := hhist e (List.mem_range.1 he)
      rw [hh'] at this
      rw [← Except.ok.inj this] at hp
      exact hcan p hp)
    rw [← hinit.zero] at this
    rw [this, ← hm, zero_add, (hperm.map c).sum_eq, List.map_map]
    congr 3
    apply List.map_congr_left
    intro e he
    simp only [Function.comp, c, hhist e (List.mem_range.1 he)]

theorem history_unique {P : Problem} {f f' e : ℕ} {x y : List Particle}
    (h : P.history f e = .ok x) (h' : P.history f' e = .ok y) : x = y := by
  rcases le_total f f' with hle | hle
  · have := (history_le hle P e).ok h
    rw [this] at h'
    exact Except.ok.inj h'
  · have := (history_le hle P e).ok h'
    rw [this] at h
    exact (Except.ok.inj h).symm

/-- Two solves of the same input agree, whatever their numbers of threads and schedules. -/
theorem C32_independent_of_threads {P P' : Problem} {fuel fuel' k k' : ℕ} {r r' : EstimatorSet}
    (hP : P' = { P with threads := P'.threads }) (hinit : FreshSet P.init) (ht : 1 ≤ P.threads)
    (ht' : 1 ≤ P'.threads) (h : SolveResult P fuel 0 r k) (h' : SolveResult P' fuel' 0 r' k') :
    r = r' := by
  have hh : ∀ e, P'.history fuel' e = P.history fuel' e := by intro e; rw [hP]; rfl
  have hi' : P'.init = P.init := by rw [hP]
  have hb' : P'.batchsize = P.batchsize := by rw [hP]
  obtain ⟨hs, l1, a1, b1⟩ := C32_as_if_sequential hinit ht h
  obtain ⟨hs', l2, a2, b2⟩ := C32_as_if_sequential (by rw [hi']; exact hinit) ht' h'
  have : hs = hs' := by
    apply List.ext_getElem (by rw [l1, l2, hb'])
    intro i h1 h2
    have e1 := a1 i hs[i] (List.getElem?_eq_getElem h1)
    have e2 := a2 i hs'[i] (List.getElem?_eq_getElem h2)
    rw [hh] at e2
    exact history_unique e1 e2
  rw [this] at b1
  rw [hi', b1] at b2
  exact Except.ok.inj b2

/-- A result exists whenever all histories run to their end and can be scored. -/
theorem C32_result_exists {P : Problem} {fuel : ℕ} (hinit : FreshSet P.init)
    (hh : ∀ e < P.batchsize, ∃ h, P.history fuel e = .ok h ∧ ∀ p ∈ h, CanScore P.init p) :
    ∃ r k, SolveResult P fuel 0 r k := by
  obtain ⟨s, h1, h2⟩ := C31_every_worker_stops (threads := P.threads) hinit hh (.refl _)
  choose cc hcc using contribution_exists hinit.shaped.names hinit.shaped.sensitivityNames
  let c : ℕ → Tallies := fun e => match P.history fuel e with
    | .ok h => cc h
    | .error _ => 0
  have hc : ∀ e h, P.history fuel e = .ok h → Contribution P.init h (c e) := by
    intro e h hh
    simp only [c, hh]
    exact hcc h
  have hw := workerInv_run hinit.bins hc h1
    (workerInv_start hinit.zero (P.history fuel) c P.threads 0)
  exact ⟨_, _, s, h1, h2, mergeAll_workers hinit hw, rfl⟩

/-! ## C33 -/

/-- The code violates C33: a second call of `Solve` on the same driver runs no history at all and
returns zero scores, because the counter still stands at or beyond the batch size. -/
theorem C33_second_solve_empty_violated {P : Problem} {fuel k k' : ℕ} {r r' : EstimatorSet}
    (hinit : FreshSet P.init) (ht : 1 ≤ P.threads) (h : SolveResult P fuel 0 r k)
    (h' : SolveResult P fuel k r' k') : r' = P.init := by
  obtain ⟨s, hrun, hf, _, rfl⟩ := h
  obtain ⟨_, hN⟩ := C31_all_histories_once hrun hf ht
  obtain ⟨s', hrun', hf', hm', _⟩ := h'
  have hi := poolInv_run hrun' (poolInv_start P.init P.threads P.batchsize s.elapsed)
  have hnone : s'.workers.flatMap Worker.done = [] := by
    rw [List.flatMap_eq_nil_iff]
    intro w hw
    rw [List.eq_nil_iff_forall_not_mem]
    intro e he
    have := (hi.mem e).1 (List.mem_flatMap.2 ⟨w, hw, by unfold claimed; simp [he]⟩)
    omega
  choose cc hcc using contribution_exists hinit.shaped.names hinit.shaped.sensitivityNames
  let c : ℕ → Tallies := fun e => match P.history fuel e with
    | .ok h => cc h
    | .error _ => 0
  have hc : ∀ e h, P.history fuel e = .ok h → Contribution P.init h (c e) := by
    intro e h hh
    simp only [c, hh]
    exact hcc h
  have hw := workerInv_run hinit.bins hc hrun'
    (workerInv_start hinit.zero (P.history fuel) c P.threads s.elapsed)
  rw [mergeAll_workers hinit hw, hnone] at hm'
  simp only [List.map_nil, List.sum_nil, Except.ok.injEq] at hm'
  rw [← hm', ← hinit.zero]

/-- What holds instead: solving again with a newly created driver gives the same scores. -/
theorem C33_new_driver_partial {P : Problem} {fuel fuel' k k' : ℕ} {r r' : EstimatorSet}
    (hinit : FreshSet P.init) (ht : 1 ≤ P.threads) (h : SolveResult P fuel 0 r k)
    (h' : SolveResult P fuel' 0 r' k') : r = r' :=
  C32_independent_of_threads rfl hinit ht ht h h'

end Minimc.Props
