import Verif.Props.Driver

/-! # Instances for C31 to C33, and property C49 -/

namespace Minimc.Props

open Classical Spec

/-- A beam of neutrons in a slab without collisions, counted where it leaves through x = 3. -/
noncomputable def slabProblem (batchsize threads : ℕ) : Problem where
  world := absorbingWorld slabWalls 0
  perturbations := []
  batchsize := batchsize
  seed := 1
  init := ⟨[⟨⟨"right", oneBin, [0], [0]⟩, plane3, []⟩], batchsize⟩
  threads := threads
  method := .surfaceTracking
  source := ⟨⟨2, 0, 0⟩, .constant ⟨1, 0, 0⟩, .group 1, .neutron⟩

theorem slabProblem_fresh (n t : ℕ) : FreshSet (slabProblem n t).init := by
  refine ⟨⟨?_, ?_, ?_, ?_⟩, ⟨?_, ?_⟩, ?_⟩
  · intro e he e' he' _
    rw [List.mem_singleton.1 he, List.mem_singleton.1 he']
  · intro e he q hq
    rw [List.mem_singleton.1 he] at hq
    cases hq
  · intro e he
    rw [List.mem_singleton.1 he]
    exact ⟨rfl, rfl⟩
  · intro e he q hq
    rw [List.mem_singleton.1 he] at hq
    cases hq
  · intro e he
    rw [List.mem_singleton.1 he]
    exact oneBin_created
  · intro e he q hq
    rw [List.mem_singleton.1 he] at hq
    cases hq
  · rfl

/-- Each history has one state, in which the neutron has just left through x = 3. -/
theorem slabProblem_history (n t e : ℕ) :
    ∃ q, (slabProblem n t).history 1 e = .ok [q] ∧ Crossed plane3 q ∧
      CanScore (slabProblem n t).init q ∧ oneBin.getIndex q.direction q.energy.toReal = .ok 0 := by
  let b : Born := ⟨⟨2, 0, 0⟩, ⟨1, 0, 0⟩, .group 1, .neutron, Rng.next (Rng.ofSeed (1 + e)), none⟩
  have hs : (slabProblem n t).source.sample ((slabProblem n t).seed + e) = .ok b := rfl
  have hrun := slab_leak_run ((Particle.ofBorn b).setPerturbations []) 0 rfl
    (by simp [Particle.setPerturbations, getIndirectEffects]) rfl rfl rfl
  refine ⟨{ (Particle.ofBorn b).setPerturbations [] with
          cell := some ⟨"out", [], none, .constant 300⟩
          position := ⟨3 + 10 / 2 ^ 52, 0, 0⟩
          rng := (Rng.canonical ((Particle.ofBorn b).setPerturbations []).rng).2
          currentSurface := some plane3
          event := .leak }, ?_, ⟨plane3, rfl, rfl, Or.inr rfl⟩, ⟨?_, ?_, ?_⟩, rfl⟩
  · unfold Problem.history
    rw [hs]
    simp only [bind, Except.bind]
    have hp := processBank_concat (run := transport .surfaceTracking 1 (absorbingWorld slabWalls 0))
      (qs := []) 0 [] (Particle.ofBorn b)
    rw [hrun] at hp
    simp only [bind, Except.bind] at hp
    have hk : ((Particle.ofBorn b).setPerturbations []).secondaries = [] := rfl
    rw [hk] at hp
    simp only [List.nil_append, List.map_nil, List.append_nil, processBank_nil] at hp
    have e1 : (slabProblem n t).method = .surfaceTracking := rfl
    have e2 : (slabProblem n t).world = absorbingWorld slabWalls 0 := rfl
    have e3 : (slabProblem n t).perturbations = [] := rfl
    rw [e1, e2, e3]
    simp only [Nat.zero_add] at hp
    rw [hp]
    rfl
  · intro e he _
    rw [List.mem_singleton.1 he]
    exact ⟨0, rfl⟩
  · intro e he q hq
    rw [List.mem_singleton.1 he] at hq
    cases hq
  · intro e he q hq
    rw [List.mem_singleton.1 he] at hq
    cases hq

theorem slabProblem_histories (n t : ℕ) : ∀ e < (slabProblem n t).batchsize,
    ∃ h, (slabProblem n t).history 1 e = .ok h ∧ ∀ p ∈ h, CanScore (slabProblem n t).init p := by
  intro e _
  obtain ⟨q, h1, _, h2, _⟩ := slabProblem_history n t e
  exact ⟨[q], h1, by simpa using h2⟩

/-- Instance of the hypotheses of C31 and C32: 1000 histories on 8 threads. -/
example : FreshSet (slabProblem 1000 8).init ∧ 1 ≤ (slabProblem 1000 8).threads ∧
    ∃ r k, SolveResult (slabProblem 1000 8) 1 0 r k :=
  ⟨slabProblem_fresh _ _, by norm_num [slabProblem],
    C32_result_exists (slabProblem_fresh _ _) (slabProblem_histories _ _)⟩

/-- With one history the score is one. -/
theorem slabProblem_one_score {t k : ℕ} {r : EstimatorSet} (ht : 1 ≤ t)
    (h : SolveResult (slabProblem 1 t) 1 0 r k) :
    r.estimators.map (fun e => e.base.scores.getD 0 0) = [1] := by
  obtain ⟨hists, hl, hh, hr⟩ := C32_as_if_sequential (slabProblem_fresh 1 t) ht h
  obtain ⟨q, hq, hcr, _, hbin⟩ := slabProblem_history 1 t 0
  have hl' : hists.length = 1 := hl
  obtain ⟨x, rfl⟩ := List.length_eq_one_iff.1 hl'
  have hx := hh 0 x rfl
  rw [hq] at hx
  rw [← Except.ok.inj hx] at hr
  unfold afterHistories at hr
  rw [res_bind_ok] at hr
  obtain ⟨s', h1, h2⟩ := hr
  unfold afterHistories at h2
  simp only [Except.ok.injEq] at h2
  subst h2
  have key := C37_counts_crossings (slabProblem_fresh 1 t).shaped (slabProblem_fresh 1 t).bins h1
  change List.Forall₂ _ [(⟨⟨"right", oneBin, [0], [0]⟩, plane3, []⟩ : Estimator)] _ at key
  cases hs : s'.estimators with
  | nil => rw [hs] at key; cases key
  | cons e' rest =>
    rw [hs] at key
    cases key with
    | cons h3 h4 =>
      cases h4
      have h5 := (h3.2 0 (by decide)).1
      simp only [List.map_cons, List.map_nil, List.cons.injEq, and_true]
      rw [h5]
      have : crossings plane3 oneBin [q] 0 = 1 := by
        unfold crossings
        simp only [List.countP_singleton]
        rw [if_pos (by simpa using ⟨hcr, hbin⟩)]
      simp only
      rw [this]
      norm_num

/-- Witness for the violation of C33: the first call returns a score of one, the second call a
score of zero. -/
theorem C33_violated : ∃ (P : Problem) (fuel k k' : ℕ) (r r' : EstimatorSet),
    SolveResult P fuel 0 r k ∧ SolveResult P fuel k r' k' ∧
      r.estimators.map (fun e => e.base.scores.getD 0 0) = [1] ∧
      r'.estimators.map (fun e => e.base.scores.getD 0 0) = [0] := by
  obtain ⟨r, k, h⟩ := C32_result_exists (slabProblem_fresh 1 1) (slabProblem_histories 1 1)
  have hk : (slabProblem 1 1).batchsize ≤ k := by
    obtain ⟨s, hrun, hf, _, rfl⟩ := h
    exact (C31_all_histories_once hrun hf (by norm_num [slabProblem])).2
  -- the second call: one fetch stops the only worker
  have h' : SolveResult (slabProblem 1 1) 1 k (slabProblem 1 1).init (k + 1) := by
    refine ⟨⟨k + 1, [⟨(slabProblem 1 1).init, .stopped, []⟩]⟩, ?_, ?_, ?_, rfl⟩
    · have := PoolStep.fetch (batchsize := (slabProblem 1 1).batchsize)
        (history := (slabProblem 1 1).history 1)
        (s := Pool.start (slabProblem 1 1).init 1 k) (i := 0)
        (w := ⟨(slabProblem 1 1).init, .ready, []⟩) rfl rfl
      have e : (Pool.start (slabProblem 1 1).init 1 k).elapsed = k := rfl
      rw [e, if_pos hk] at this
      exact .step (.refl _) this
    · intro w hw
      rw [List.mem_singleton.1 hw]
    · have hf := slabProblem_fresh 1 1
      have := mergeAll_withTallies (s := (slabProblem 1 1).init)
        [((slabProblem 1 1).init, (0 : Tallies))] 0 (by
          intro o ho
          rw [List.mem_singleton.1 ho]
          exact ⟨compatible_refl hf.shaped, allNamed_refl _⟩)
      simp only [List.map_cons, List.map_nil, List.sum_cons, List.sum_nil, add_zero] at this
      rw [← hf.zero] at this
      exact this
  exact ⟨slabProblem 1 1, 1, k, k + 1, r, _, h, h',
    slabProblem_one_score (by norm_num) h, by simp [slabProblem]⟩

/-! ## C49 -/

/-- The code violates C49: whatever the input, the eigenvalue driver returns the initial
estimators. -/
theorem C49_solve_returns_nothing_violated (P : Problem) (lastInactive : ℕ) :
    keigenSolve P lastInactive = P.init := by
  have h1 : ∀ n, keigenThreadResults n = [] := by
    intro n
    unfold keigenThreadResults
    generalize List.range n = l
    induction l with
    | nil => rfl
    | cons _ _ ih => exact ih
  unfold keigenSolve keigenCycle
  rw [h1]
  generalize List.range lastInactive = l
  induction l with
  | nil => rfl
  | cons _ _ ih => exact ih

/-- Witness: in a problem where every source particle crosses the estimator's surface, the score
that the eigenvalue driver returns is zero, while a history of the same problem scores one. -/
theorem C49_violated : ∃ (P : Problem) (k : ℕ) (r : EstimatorSet), SolveResult P 1 0 r k ∧
    r.estimators.map (fun e => e.base.scores.getD 0 0) = [1] ∧ ∀ lastInactive,
      (keigenSolve P lastInactive).estimators.map (fun e => e.base.scores.getD 0 0) = [0] := by
  obtain ⟨r, k, h⟩ := C32_result_exists (slabProblem_fresh 1 1) (slabProblem_histories 1 1)
  refine ⟨_, k, r, h, slabProblem_one_score (by norm_num) h, fun n => ?_⟩
  rw [C49_solve_returns_nothing_violated]
  simp [slabProblem]

/-- What holds: the shared source bank hands each particle to exactly one worker.  At all times
the particles taken and those left in the bank are those it held at first. -/
theorem C49_bank_partial {s s' : BankPool} (h : BankRun s s') :
    (s'.workers.flatMap BankWorker.taken ++ s'.bank).Perm
      (s.workers.flatMap BankWorker.taken ++ s.bank) := by
  induction h with
  | refl => exact .refl _
  | @step s₁ s₂ _ h2 ih =>
    refine List.Perm.trans ?_ ih
    cases h2 with
    | @call i w hw hst =>
      rcases List.eq_nil_or_concat' s₁.bank with hb | ⟨bank, p, hb⟩
      · have hn : nextParticle s₁.bank = (none, []) := by rw [hb]; rfl
        obtain ⟨x, y, e1, e2⟩ := set_split hw { w with stopped := true }
        rw [hn]
        dsimp only
        rw [e2, e1, hb]
        simp
      · have hn : nextParticle s₁.bank = (some p, bank) := by
          rw [hb]
          unfold nextParticle
          rw [List.getLast?_concat, List.dropLast_concat]
        obtain ⟨x, y, e1, e2⟩ := set_split hw { w with taken := w.taken ++ [p] }
        rw [hn]
        dsimp only
        rw [e2, e1, hb]
        simp only [List.flatMap_append, List.flatMap_cons, List.append_assoc]
        refine List.Perm.append_left _ (List.Perm.append_left _ ?_)
        rw [← List.append_assoc (y.flatMap BankWorker.taken) bank [p]]
        exact List.perm_append_comm

theorem bankWorkers_length_run {s s' : BankPool} (h : BankRun s s') :
    s'.workers.length = s.workers.length := by
  induction h with
  | refl => rfl
  | step _ h2 ih => cases h2; simpa using ih

theorem stopped_bank_empty {s s' : BankPool} (h : BankRun s s')
    (h0 : (∃ w ∈ s.workers, w.stopped = true) → s.bank = []) :
    (∃ w ∈ s'.workers, w.stopped = true) → s'.bank = [] := by
  induction h with
  | refl => exact h0
  | @step s₁ s₂ _ h2 ih =>
    cases h2 with
    | @call i w hw hst =>
      rcases List.eq_nil_or_concat' s₁.bank with hb | ⟨bank, p, hb⟩
      · intro _
        rw [hb]
        rfl
      · have hn : nextParticle s₁.bank = (some p, bank) := by
          rw [hb]
          unfold nextParticle
          rw [List.getLast?_concat, List.dropLast_concat]
        obtain ⟨x, y, e1, e2⟩ := set_split hw { w with taken := w.taken ++ [p] }
        rw [hn]
        dsimp only
        rw [e2]
        rintro ⟨v, hv, hvs⟩
        exfalso
        have hv' : v ∈ s₁.workers := by
          rw [e1]
          rcases List.mem_append.1 hv with hv | hv
          · simp [hv]
          · rcases List.mem_cons.1 hv with rfl | hv
            · rw [hst] at hvs; cases hvs
            · simp [hv]
        rw [ih ⟨v, hv', hvs⟩] at hb
        simp at hb

/-- When all workers have stopped, every particle of the bank has been given to exactly one of
them, none twice and none left. -/
theorem C49_bank_emptied_partial {bank : Bank} {threads : ℕ} {s : BankPool} (ht : 1 ≤ threads)
    (h : BankRun ⟨bank, List.replicate threads ⟨[], false⟩⟩ s)
    (hf : ∀ w ∈ s.workers, w.stopped = true) :
    (s.workers.flatMap BankWorker.taken).Perm bank := by
  have h1 := C49_bank_partial h
  have hl := bankWorkers_length_run h
  have hpos : 0 < s.workers.length := by rw [hl]; simp; omega
  obtain ⟨w, hw⟩ := List.exists_mem_of_length_pos hpos
  have he := stopped_bank_empty h (by
    rintro ⟨v, hv, hvs⟩
    rw [List.eq_of_mem_replicate hv] at hvs
    cases hvs) ⟨w, hw, hf w hw⟩
  rw [he, List.append_nil] at h1
  refine h1.trans ?_
  have : (List.replicate threads (⟨[], false⟩ : BankWorker)).flatMap BankWorker.taken = [] := by
    rw [List.flatMap_eq_nil_iff]
    intro v hv
    rw [List.eq_of_mem_replicate hv]
  rw [this, List.nil_append]

/-- Instance: two workers and a bank of one particle; the second worker finds the bank empty
before the first does. -/
example (p : Particle) : ∃ s, BankRun ⟨[p], List.replicate 2 ⟨[], false⟩⟩ s ∧
    (∀ w ∈ s.workers, w.stopped = true) ∧ s.workers.map BankWorker.taken = [[p], []] :=
  ⟨⟨[], [⟨[p], true⟩, ⟨[], true⟩]⟩,
    .step (.step (.step (.refl _) (.call (i := 0) (w := ⟨[], false⟩) rfl rfl))
      (.call (i := 1) (w := ⟨[], false⟩) rfl rfl)) (.call (i := 0) (w := ⟨[p], false⟩) rfl rfl),
    by simp, rfl⟩

/-- The source bank of the eigenvalue driver holds one particle per history, the one sampled from
that history's number. -/
theorem C49_source_bank_partial {source : Source} {n : ℕ} {bank : Bank}
    (h : keigenSourceBank source n = .ok bank) :
    bank.length = n ∧ ∀ i < n, ∃ b, source.sample (i + 1) = .ok b ∧
      bank[i]? = some (Particle.ofBorn b) := by
  unfold keigenSourceBank at h
  rw [res_bind_ok] at h
  obtain ⟨born, h1, h2⟩ := h
  simp only [Except.ok.injEq] at h2
  subst h2
  have key : ∀ (l : List ℕ) (bs : List Born), l.mapM source.sample = .ok bs →
      bs.length = l.length ∧ ∀ i (hi : i < l.length), ∃ b, source.sample l[i] = .ok b ∧
        bs[i]? = some b := by
    intro l
    induction l with
    | nil =>
      intro bs hb
      simp only [List.mapM_nil] at hb
      cases hb
      exact ⟨rfl, fun i hi => absurd hi (by simp)⟩
    | cons a l ih =>
      intro bs hb
      rw [List.mapM_cons] at hb
      rw [res_bind_ok] at hb
      obtain ⟨b, hb1, hb2⟩ := hb
      rw [res_bind_ok] at hb2
      obtain ⟨bs', hb3, hb4⟩ := hb2
      cases hb4
      obtain ⟨i1, i2⟩ := ih bs' hb3
      refine ⟨by simp [i1], ?_⟩
      intro i hi
      rcases i with _ | i
      · exact ⟨b, hb1, rfl⟩
      · obtain ⟨b', hb', hb''⟩ := i2 i (by simpa using hi)
        exact ⟨b', by simpa using hb', by simpa using hb''⟩
  obtain ⟨k1, k2⟩ := key _ _ h1
  refine ⟨by simpa using k1, ?_⟩
  intro i hi
  obtain ⟨b, hb1, hb2⟩ := k2 i (by simpa using hi)
  rw [List.getElem_range'] at hb1
  refine ⟨b, ?_, by simp [hb2]⟩
  rw [← hb1]
  congr 1
  omega

end Minimc.Props
