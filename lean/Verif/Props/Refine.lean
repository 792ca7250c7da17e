import Verif.Spec.Refine
import Verif.Lemmas.Fuel
import Verif.Lemmas.Statistics
import Verif.Props.Bins
import Verif.Props.Score
import Verif.Props.Driver
import Verif.Props.SensitivityMean
import Verif.Props.Estimators

/-! # Properties: what is tallied does not change what happens (C107) -/

namespace Minimc.Props

open Classical Spec

/-! ### Bins -/

theorem countNotAbove_eq {L : List ℝ} {v v' : ℝ} (h : countNotAbove L v = countNotAbove L v') :
    ∀ b ∈ L, b ≤ v ↔ b ≤ v' := by
  have key : ∀ {x y : ℝ}, x ≤ y → ∀ {L : List ℝ}, countNotAbove L x = countNotAbove L y →
      ∀ b ∈ L, b ≤ x ↔ b ≤ y := by
    intro x y hxy L
    induction L with
    | nil => simp
    | cons a L ih =>
      intro h b hb
      have hle : countNotAbove L x ≤ countNotAbove L y := by
        apply List.countP_mono_left
        intro c _ hc
        simp only [decide_eq_true_eq] at hc ⊢
        exact hc.trans hxy
      unfold countNotAbove at h hle ih
      simp only [List.countP_cons, decide_eq_true_eq] at h
      by_cases h1 : a ≤ x
      · rw [if_pos h1, if_pos (h1.trans hxy)] at h
        rcases List.mem_cons.1 hb with rfl | hb
        · exact ⟨fun _ => h1.trans hxy, fun _ => h1⟩
        · exact ih (by omega) b hb
      · by_cases h2 : a ≤ y
        · rw [if_neg h1, if_pos h2] at h
          omega
        · rw [if_neg h1, if_neg h2] at h
          rcases List.mem_cons.1 hb with rfl | hb
          · exact ⟨fun h => absurd h h1, fun h => absurd h h2⟩
          · exact ih (by omega) b hb
  rcases le_total v v' with hv | hv
  · exact key hv h
  · exact fun b hb => (key hv h.symm b hb).symm

theorem index_count {b : Bins} (hb : Created b) (ha : AboveOne b) {v : ℝ} {i : ℕ}
    (h : b.getIndex v = .ok i) : i = countNotAbove b.printed v := by
  have hlog : ∀ n base lo hi w, b = .logspace n base lo hi w → 1 < base ∧ 0 ≤ v := by
    intro n base lo hi w he
    refine ⟨ha n base lo hi w he, ?_⟩
    by_contra hv
    rw [he, (C10_undefined_iff).2 (Or.inl (not_le.1 hv))] at h
    cases h
  rw [C11_index_counts_printed_partial hb v hlog] at h
  exact (Except.ok.inj h).symm

/-- Values in the same fine bin are in the same coarse bin. -/
theorem coarse_eq {f c : Bins} (hf : Created f) (hc : Created c) (af : AboveOne f) (ac : AboveOne c)
    (hsub : ∀ b ∈ c.printed, b ∈ f.printed) {v v' : ℝ} {j k k' : ℕ} (h : f.getIndex v = .ok j)
    (h' : f.getIndex v' = .ok j) (hk : c.getIndex v = .ok k) (hk' : c.getIndex v' = .ok k') : k = k' := by
  have e : countNotAbove f.printed v = countNotAbove f.printed v' :=
    (index_count hf af h).symm.trans (index_count hf af h')
  rw [index_count hc ac hk, index_count hc ac hk']
  refine List.countP_congr fun b hb => ?_
  simp only [decide_eq_true_eq]
  exact countNotAbove_eq e b (hsub b hb)

theorem getIndex_parts {b : ParticleBins} {d : Direction} {e : ℝ} {i : ℕ} (h : b.getIndex d e = .ok i) :
    ∃ c j, CosineBin b d c ∧ b.energy.getIndex e = .ok j ∧ i = b.strides.1 * c + j := by
  unfold ParticleBins.getIndex at h
  simp only [bind, Except.bind] at h
  cases hd : b.direction with
  | none =>
    rw [hd] at h
    dsimp only at h
    cases he : b.energy.getIndex e with
    | error => rw [he] at h; cases h
    | ok j =>
      rw [he] at h
      exact ⟨0, j, Or.inl ⟨hd, rfl⟩, rfl, (Except.ok.inj h).symm⟩
  | some r =>
    rw [hd] at h
    dsimp only at h
    cases hc : b.cosine.getIndex (r.dot d) with
    | error => rw [hc] at h; cases h
    | ok c =>
      rw [hc] at h
      dsimp only at h
      cases he : b.energy.getIndex e with
      | error => rw [he] at h; cases h
      | ok j =>
        rw [he] at h
        exact ⟨c, j, Or.inr ⟨r, hd, hc⟩, rfl, (Except.ok.inj h).symm⟩

theorem created_parts {b : ParticleBins} (h : CreatedParticleBins b) : Created b.cosine ∧ Created b.energy := by
  obtain ⟨c, e, hc, he, h⟩ := h
  simp only [ParticleBins.create, noexcept, bind, Except.bind, Except.ok.injEq] at h
  rw [← h]
  exact ⟨hc, he⟩

/-- **C107** If boundaries are left out, directions and energies that were in the same bin still are. -/
theorem C107_bins {f c : ParticleBins} (hf : CreatedParticleBins f) (hc : CreatedParticleBins c)
    (af : AboveOne f.cosine ∧ AboveOne f.energy) (ac : AboveOne c.cosine ∧ AboveOne c.energy)
    (h : Divides f c) {d : Direction} {e : ℝ} {j k : ℕ} (hj : f.getIndex d e = .ok j)
    (hk : c.getIndex d e = .ok k) : BinIn f j c k := by
  have key : ∀ {d d' : Direction} {e e' : ℝ} {k k' : ℕ}, f.getIndex d e = .ok j →
      f.getIndex d' e' = .ok j → c.getIndex d e = .ok k → c.getIndex d' e' = .ok k' → k' = k := by
    intro d d' e e' k k' hj hj' hk hk'
    obtain ⟨x, y, p1, p2, p3⟩ := getIndex_parts hj
    obtain ⟨x', y', p1', p2', p3'⟩ := getIndex_parts hj'
    obtain ⟨u, v, q1, q2, q3⟩ := getIndex_parts hk
    obtain ⟨u', v', q1', q2', q3'⟩ := getIndex_parts hk'
    obtain ⟨rfl, rfl⟩ := (C12_flat_index_iff_same_bins hf d d' e e' x x' y y' p1 p1' p2 p2').1
      (hj.trans hj'.symm)
    have hv : v = v' := coarse_eq (created_parts hf).2 (created_parts hc).2 af.2 ac.2 h.energy p2 p2' q2 q2'
    have hu : u = u' := by
      rcases q1 with ⟨n1, n2⟩ | ⟨r, r1, r2⟩
      · rcases q1' with ⟨_, m2⟩ | ⟨r', r1', _⟩
        · rw [n2, m2]
        · rw [n1] at r1'
          cases r1'
      · rcases q1' with ⟨m1, _⟩ | ⟨r', r1', r2'⟩
        · rw [m1] at r1
          cases r1
        · rw [r1] at r1'
          cases r1'
          rcases h.cosine r r1 with hn | ⟨hd, hsub⟩
          · rw [hn] at r2 r2'
            exact (Except.ok.inj r2).symm.trans (Except.ok.inj r2')
          · rcases p1 with ⟨m1, _⟩ | ⟨s, s1, s2⟩
            · rw [hd] at m1
              cases m1
            · rcases p1' with ⟨m1, _⟩ | ⟨s', s1', s2'⟩
              · rw [hd] at m1
                cases m1
              · rw [hd] at s1 s1'
                cases s1
                cases s1'
                exact coarse_eq (created_parts hf).1 (created_parts hc).1 af.1 ac.1 hsub s2 s2' r2 r2'
    rw [q3, q3', hu, hv]
  intro d₁ e₁ h₁ k₁ hk₁
  exact key hj h₁ hk hk₁

/-! ### Scores of a history -/

/-- Fine bins divide the score of a coarse one. -/
theorem historyScore_divides {f c : ParticleBins} (hf : CreatedParticleBins f) (hc : CreatedParticleBins c)
    (af : AboveOne f.cosine ∧ AboveOne f.energy) (ac : AboveOne c.cosine ∧ AboveOne c.energy)
    (h : Divides f c) {g : Particle → ℝ} {states : List Particle}
    (h1 : ∀ p ∈ states, g p ≠ 0 → ∃ j, f.getIndex p.direction p.energy.toReal = .ok j)
    (h2 : ∀ p ∈ states, g p ≠ 0 → ∃ k, c.getIndex p.direction p.energy.toReal = .ok k) (i : ℕ) :
    historyScore c g states i =
      ∑ j ∈ (Finset.range f.size).filter (fun j => BinIn f j c i), historyScore f g states j := by
  induction states with
  | nil => simp [historyScore]
  | cons p states ih =>
    have ih := ih (fun q hq => h1 q (List.mem_cons_of_mem _ hq)) fun q hq => h2 q (List.mem_cons_of_mem _ hq)
    have e : ∀ (b : ParticleBins) (n : ℕ), historyScore b g (p :: states) n =
        (if b.getIndex p.direction p.energy.toReal = .ok n then g p else 0) + historyScore b g states n := by
      intro b n
      simp [historyScore]
    simp only [e, Finset.sum_add_distrib]
    rw [ih]
    congr 1
    by_cases h0 : g p = 0
    · simp [h0]
    · obtain ⟨j, hj⟩ := h1 p List.mem_cons_self h0
      obtain ⟨k, hk⟩ := h2 p List.mem_cons_self h0
      simp only [hj, hk, Except.ok.injEq]
      rw [Finset.sum_ite_eq]
      have hlt : j < f.size := C12_flat_index_lt_size hf _ _ _ hj
      have hiff : k = i ↔ BinIn f j c i :=
        ⟨fun hi => hi ▸ C107_bins hf hc af ac h hj hk, fun hb => hb _ _ hj _ hk⟩
      simp only [Finset.mem_filter, Finset.mem_range, hlt, true_and, hiff]

/-! ### Standard errors -/

theorem map_sample {α : Type} (l : List α) (a : α) (F : α → ℝ) :
    l.map F = sample (fun k => F (l.getD k a)) l.length := by
  unfold sample
  apply List.ext_getElem
  · simp
  · intro k hk hk'
    have : k < l.length := by simpa using hk
    simp [List.getElem?_eq_getElem this]

theorem standardError_sample (s : ℕ → ℝ) {n : ℕ} (hn : 0 < n) :
    standardError (sample s n) = Real.sqrt (∑ k ∈ Finset.range n,
      (s k - (∑ e ∈ Finset.range n, s e) / n) ^ 2) / n := by
  have hne : sample s n ≠ [] := by
    rw [← List.length_pos_iff, length_sample]
    exact hn
  rw [standardError_eq hne, length_sample, mean_sample]
  congr 2
  have : (sample s n).map (fun x => (x - (∑ e ∈ Finset.range n, s e) / n) ^ 2) =
      sample (fun k => (s k - (∑ e ∈ Finset.range n, s e) / n) ^ 2) n := by
    simp [sample, Function.comp_def]
  rw [this, sum_sample]

theorem sqrt_sum_add (u v : ℕ → ℝ) (n : ℕ) :
    Real.sqrt (∑ k ∈ Finset.range n, (u k + v k) ^ 2) ≤
      Real.sqrt (∑ k ∈ Finset.range n, u k ^ 2) + Real.sqrt (∑ k ∈ Finset.range n, v k ^ 2) := by
  have hu : 0 ≤ ∑ k ∈ Finset.range n, u k ^ 2 := Finset.sum_nonneg fun _ _ => sq_nonneg _
  have hv : 0 ≤ ∑ k ∈ Finset.range n, v k ^ 2 := Finset.sum_nonneg fun _ _ => sq_nonneg _
  have hcs := Finset.sum_mul_sq_le_sq_mul_sq (Finset.range n) u v
  have hab : ∑ k ∈ Finset.range n, u k * v k ≤
      Real.sqrt (∑ k ∈ Finset.range n, u k ^ 2) * Real.sqrt (∑ k ∈ Finset.range n, v k ^ 2) := by
    rw [← Real.sqrt_mul hu]
    exact Real.le_sqrt_of_sq_le hcs
  apply Real.sqrt_le_iff.2
  refine ⟨by positivity, ?_⟩
  have e1 := Real.sq_sqrt hu
  have e2 := Real.sq_sqrt hv
  have e3 : ∑ k ∈ Finset.range n, (u k + v k) ^ 2 = ∑ k ∈ Finset.range n, u k ^ 2 +
      2 * ∑ k ∈ Finset.range n, u k * v k + ∑ k ∈ Finset.range n, v k ^ 2 := by
    rw [Finset.mul_sum, ← Finset.sum_add_distrib, ← Finset.sum_add_distrib]
    exact Finset.sum_congr rfl fun k _ => by ring
  rw [e3]
  nlinarith

theorem standardError_add (s t : ℕ → ℝ) {n : ℕ} (hn : 0 < n) :
    standardError (sample (fun k => s k + t k) n) ≤ standardError (sample s n) + standardError (sample t n) := by
  rw [standardError_sample _ hn, standardError_sample _ hn, standardError_sample _ hn, ← add_div]
  refine div_le_div_of_nonneg_right ?_ (Nat.cast_nonneg n)
  refine le_trans (le_of_eq ?_) (sqrt_sum_add _ _ n)
  congr 1
  refine Finset.sum_congr rfl fun k _ => ?_
  rw [Finset.sum_add_distrib]
  ring

theorem standardError_const {n : ℕ} (hn : 0 < n) : standardError (sample (fun _ => (0 : ℝ)) n) = 0 := by
  rw [standardError_sample _ hn]
  simp

theorem standardError_sum {ι : Type} (J : Finset ι) (s : ι → ℕ → ℝ) {n : ℕ} (hn : 0 < n) :
    standardError (sample (fun k => ∑ j ∈ J, s j k) n) ≤ ∑ j ∈ J, standardError (sample (s j) n) := by
  induction J using Finset.induction_on with
  | empty => simp [standardError_const hn]
  | insert a J ha ih =>
    simp only [Finset.sum_insert ha]
    exact (standardError_add _ _ hn).trans (by gcongr)

/-! ### Runs -/

theorem afterHistories_canScore {s : EstimatorSet} (hb : s.BinsCreated) :
    ∀ (hs : List (List Particle)) (t : Tallies) (s' : EstimatorSet)
      (c : List Particle → Tallies), (∀ h ∈ hs, Contribution s h (c h)) →
      afterHistories (s.withTallies t) hs = .ok s' → ∀ h ∈ hs, ∀ p ∈ h, ∀ e ∈ s.estimators, e.CanScore p
  | [], _, _, _, _, _ => by simp
  | a :: hs, t, s', c, hc, h => by
    unfold afterHistories at h
    simp only [bind, Except.bind] at h
    rcases h1 : (s.withTallies t).addHistory a with er | s₁
    · rw [h1] at h; cases h
    · rw [h1] at h
      have hcan : ∀ p ∈ a, CanScore s p := by
        intro p hp
        have := addHistory_inv h1 p hp
        rw [canScore_iff] at this ⊢
        intro e he
        exact (canScore_withTallies _ p).1 (this _ (List.mem_map.2 ⟨e, he, rfl⟩))
      have h2 := addHistory_ok hb hcan t (c a) (hc a (List.mem_cons_self ..))
      rw [h1] at h2
      cases h2
      intro x hx
      rcases List.mem_cons.1 hx with rfl | hx
      · exact fun p hp => canScore_iff.1 (hcan p hp)
      · exact afterHistories_canScore hb hs _ s' c (fun x hx => hc x (List.mem_cons_of_mem _ hx)) h x hx

/-- The histories of two runs. -/
theorem same_histories {P P' : Problem} (h : SameHistories P P') {fuel fuel' e : ℕ} {x x' : List Particle}
    (hx : P.history fuel e = .ok x) (hx' : P'.history fuel' e = .ok x') : x = x' := by
  have hP : ∀ f, P'.history f e = P.history f e := by
    intro f
    unfold Problem.history
    rw [h.source, h.seed, h.method, h.world, h.perturbations]
  rw [hP] at hx'
  rcases le_total fuel fuel' with hf | hf
  · rcases history_le hf P e with k | k
    · rw [k] at hx
      cases hx
    · rw [hx, hx'] at k
      exact Except.ok.inj k
  · rcases history_le hf P e with k | k
    · rw [k] at hx'
      cases hx'
    · rw [hx, hx'] at k
      exact (Except.ok.inj k).symm

/-- What a run prints, in terms of its histories. -/
theorem printed_run {P : Problem} (hinit : FreshSet P.init) (ht : 1 ≤ P.threads) (hb : 1 ≤ P.batchsize)
    {fuel elapsed : ℕ} {r : EstimatorSet} (h : SolveResult P fuel 0 r elapsed) :
    ∃ hists : List (List Particle), hists.length = P.batchsize ∧
      (∀ e x, hists[e]? = some x → P.history fuel e = .ok x) ∧
      (∀ x ∈ hists, ∀ p ∈ x, ∀ o ∈ P.init.estimators, o.CanScore p) ∧
      List.Forall₂ (fun o o' : Estimator =>
        (o'.base.means P.batchsize).length = o.base.bins.size ∧
        (o'.base.stdDevs P.batchsize).length = o.base.bins.size ∧
        (∀ i < o.base.bins.size,
          (o'.base.means P.batchsize)[i]? = some (.ok (mean (hists.map (historyScore o.base.bins
            (fun p => if Crossed o.surface p then 1 else 0) · i)))) ∧
          (o'.base.stdDevs P.batchsize)[i]? = some (.ok (standardError (hists.map (historyScore
            o.base.bins (fun p => if Crossed o.surface p then 1 else 0) · i))))) ∧
        List.Forall₂ (fun q q' : Sensitivity => ∀ i < q.base.bins.size,
          (q'.base.means P.batchsize)[i]? = some (.ok (mean (hists.map (historyScore q.base.bins
            (effectAtCrossing q.surface q.perturbation) · i)))) ∧
          (q'.base.stdDevs P.batchsize)[i]? = some (.ok (standardError (hists.map (historyScore
            q.base.bins (effectAtCrossing q.surface q.perturbation) · i)))))
          o.sensitivities o'.sensitivities) P.init.estimators r.estimators := by
  obtain ⟨hists, hl, hh, hr⟩ := C32_as_if_sequential hinit ht h
  have hne : hists ≠ [] := by
    rintro rfl
    simp at hl
    omega
  choose c hc using contribution_exists hinit.shaped.names hinit.shaped.sensitivityNames
  have hr' := hr
  rw [hinit.zero] at hr'
  have hcan := afterHistories_canScore hinit.bins hists 0 r c (fun x _ => hc x) hr'
  have hp := C35_printed hinit.shaped hinit.bins hinit.zero hne hr
  rw [hl] at hp
  exact ⟨hists, hl, hh, hcan, hp.imp fun o o' ⟨_, k1, k2, k3, k4⟩ =>
    ⟨k1, k2, k3, k4.imp fun q q' h => h.2⟩⟩

/-- Means and standard errors of the same histories with fine and coarse bins. -/
theorem divided_means {f c : ParticleBins} (hf : CreatedParticleBins f) (hc : CreatedParticleBins c)
    (af : AboveOne f.cosine ∧ AboveOne f.energy) (ac : AboveOne c.cosine ∧ AboveOne c.energy)
    (h : Divides f c) {g : Particle → ℝ} {hists : List (List Particle)} (hne : hists ≠ [])
    (h1 : ∀ x ∈ hists, ∀ p ∈ x, g p ≠ 0 → ∃ j, f.getIndex p.direction p.energy.toReal = .ok j)
    (h2 : ∀ x ∈ hists, ∀ p ∈ x, g p ≠ 0 → ∃ k, c.getIndex p.direction p.energy.toReal = .ok k) (i : ℕ) :
    mean (hists.map (historyScore c g · i)) =
      ∑ j ∈ (Finset.range f.size).filter (fun j => BinIn f j c i), mean (hists.map (historyScore f g · j)) ∧
    standardError (hists.map (historyScore c g · i)) ≤
      ∑ j ∈ (Finset.range f.size).filter (fun j => BinIn f j c i),
        standardError (hists.map (historyScore f g · j)) := by
  have hn : 0 < hists.length := List.length_pos_iff.2 hne
  have e : hists.map (historyScore c g · i) = sample (fun k => ∑ j ∈ (Finset.range f.size).filter
      (fun j => BinIn f j c i), historyScore f g (hists.getD k []) j) hists.length := by
    rw [← map_sample hists [] fun x => ∑ j ∈ (Finset.range f.size).filter
      (fun j => BinIn f j c i), historyScore f g x j]
    exact List.map_congr_left fun x hx => historyScore_divides hf hc af ac h (h1 x hx) (h2 x hx) i
  have e' : ∀ j, hists.map (historyScore f g · j) =
      sample (fun k => historyScore f g (hists.getD k []) j) hists.length :=
    fun j => map_sample hists [] fun x => historyScore f g x j
  rw [e]
  simp only [e', mean_sample]
  refine ⟨?_, standardError_sum _ (fun j k => historyScore f g (hists.getD k []) j) hn⟩
  rw [← Finset.sum_div, Finset.sum_comm]

theorem crossed_id {s s' : SurfaceObj} (h : s'.id = s.id) (p : Particle) : Crossed s' p ↔ Crossed s p := by
  unfold Crossed
  rw [h]

theorem same_lists {P P' : Problem} (hsame : SameHistories P P') {fuel fuel' : ℕ}
    {hists hists' : List (List Particle)} (hl : hists.length = P.batchsize)
    (hl' : hists'.length = P'.batchsize)
    (hh : ∀ e x, hists[e]? = some x → P.history fuel e = .ok x)
    (hh' : ∀ e x, hists'[e]? = some x → P'.history fuel' e = .ok x) : hists' = hists := by
  apply List.ext_getElem
  · rw [hl, hl', hsame.batchsize]
  · intro e h1 h2
    exact (same_histories hsame (hh e _ (List.getElem?_eq_getElem h2))
      (hh' e _ (List.getElem?_eq_getElem h1))).symm

section Runs

variable {P P' : Problem} {fuel fuel' elapsed elapsed' : ℕ} {r r' : EstimatorSet}

/-- **C107** What an estimator prints does not depend on the other estimators, nor on the number of
threads. -/
theorem C107_same (hsame : SameHistories P P') (hinit : FreshSet P.init) (hinit' : FreshSet P'.init)
    (ht : 1 ≤ P.threads) (ht' : 1 ≤ P'.threads) (hb : 1 ≤ P.batchsize)
    (h : SolveResult P fuel 0 r elapsed) (h' : SolveResult P' fuel' 0 r' elapsed')
    {o q o' q' : Estimator} (ho : (o, q) ∈ P.init.estimators.zip r.estimators)
    (ho' : (o', q') ∈ P'.init.estimators.zip r'.estimators) (hs : o'.surface.id = o.surface.id)
    (hbins : o'.base.bins = o.base.bins) :
    q'.base.means P.batchsize = q.base.means P.batchsize ∧
      q'.base.stdDevs P.batchsize = q.base.stdDevs P.batchsize := by
  obtain ⟨hists, hl, hh, -, hp⟩ := printed_run hinit ht hb h
  obtain ⟨hists', hl', hh', -, hp'⟩ := printed_run hinit' ht' (by rw [hsame.batchsize]; exact hb) h'
  cases same_lists hsame hl hl' hh hh'
  obtain ⟨k1, k2, k3, -⟩ := (List.forall₂_iff_zip.1 hp).2 ho
  obtain ⟨m1, m2, m3, -⟩ := (List.forall₂_iff_zip.1 hp').2 ho'
  rw [hsame.batchsize, hbins] at m1 m2 m3
  simp only [crossed_id hs] at m3
  constructor
  · apply List.ext_getElem?
    intro i
    by_cases hi : i < o.base.bins.size
    · rw [(k3 i hi).1, (m3 i hi).1]
    · rw [List.getElem?_eq_none (by omega), List.getElem?_eq_none (by omega)]
  · apply List.ext_getElem?
    intro i
    by_cases hi : i < o.base.bins.size
    · rw [(k3 i hi).2, (m3 i hi).2]
    · rw [List.getElem?_eq_none (by omega), List.getElem?_eq_none (by omega)]

/-- **C107** If the bins of an estimator are those of another one with some boundaries left out, each mean
that it prints is the sum of the means that the other one prints in the bins it consists of, and its
standard deviation is not greater than the sum of theirs. -/
theorem C107_result (hsame : SameHistories P P') (hinit : FreshSet P.init) (hinit' : FreshSet P'.init)
    (ht : 1 ≤ P.threads) (ht' : 1 ≤ P'.threads) (hb : 1 ≤ P.batchsize)
    (h : SolveResult P fuel 0 r elapsed) (h' : SolveResult P' fuel' 0 r' elapsed')
    {o q o' q' : Estimator} (ho : (o, q) ∈ P.init.estimators.zip r.estimators)
    (ho' : (o', q') ∈ P'.init.estimators.zip r'.estimators) (hs : o'.surface.id = o.surface.id)
    (af : AboveOne o.base.bins.cosine ∧ AboveOne o.base.bins.energy)
    (ac : AboveOne o'.base.bins.cosine ∧ AboveOne o'.base.bins.energy)
    (hdiv : Divides o.base.bins o'.base.bins) :
    ∃ m s m' s' : ℕ → ℝ,
      (∀ j < o.base.bins.size, (q.base.means P.batchsize)[j]? = some (.ok (m j)) ∧
        (q.base.stdDevs P.batchsize)[j]? = some (.ok (s j))) ∧
      ∀ i < o'.base.bins.size, (q'.base.means P.batchsize)[i]? = some (.ok (m' i)) ∧
        (q'.base.stdDevs P.batchsize)[i]? = some (.ok (s' i)) ∧
        m' i = ∑ j ∈ (Finset.range o.base.bins.size).filter
          (fun j => BinIn o.base.bins j o'.base.bins i), m j ∧
        s' i ≤ ∑ j ∈ (Finset.range o.base.bins.size).filter
          (fun j => BinIn o.base.bins j o'.base.bins i), s j := by
  obtain ⟨hists, hl, hh, hcan, hp⟩ := printed_run hinit ht hb h
  obtain ⟨hists', hl', hh', hcan', hp'⟩ := printed_run hinit' ht' (by rw [hsame.batchsize]; exact hb) h'
  cases same_lists hsame hl hl' hh hh'
  have hne : hists ≠ [] := by
    rintro rfl
    simp at hl
    omega
  obtain ⟨-, -, k3, -⟩ := (List.forall₂_iff_zip.1 hp).2 ho
  obtain ⟨-, -, m3, -⟩ := (List.forall₂_iff_zip.1 hp').2 ho'
  rw [hsame.batchsize] at m3
  simp only [crossed_id hs] at m3
  have hmem := (List.of_mem_zip ho).1
  have hmem' := (List.of_mem_zip ho').1
  have hg : ∀ p : Particle, (if Crossed o.surface p then (1 : ℝ) else 0) ≠ 0 → Crossed o.surface p := by
    intro p hp
    by_contra hc
    rw [if_neg hc] at hp
    exact hp rfl
  refine ⟨_, _, _, _, k3, fun i hi => ⟨(m3 i hi).1, (m3 i hi).2, ?_⟩⟩
  exact divided_means (hinit.bins.1 o hmem) (hinit'.bins.1 o' hmem') af ac hdiv hne
    (fun x hx p hp hz => (hcan x hx p hp o hmem).1 (hg p hz))
    (fun x hx p hp hz => (hcan' x hx p hp o' hmem').1 ((crossed_id hs p).2 (hg p hz))) i

/-- **C107** All means that an estimator prints add up to the mean that an estimator without bins
prints. -/
theorem C107_total (hsame : SameHistories P P') (hinit : FreshSet P.init) (hinit' : FreshSet P'.init)
    (ht : 1 ≤ P.threads) (ht' : 1 ≤ P'.threads) (hb : 1 ≤ P.batchsize)
    (h : SolveResult P fuel 0 r elapsed) (h' : SolveResult P' fuel' 0 r' elapsed')
    {o q o' q' : Estimator} (ho : (o, q) ∈ P.init.estimators.zip r.estimators)
    (ho' : (o', q') ∈ P'.init.estimators.zip r'.estimators) (hs : o'.surface.id = o.surface.id)
    (af : AboveOne o.base.bins.cosine ∧ AboveOne o.base.bins.energy)
    (hc : o'.base.bins.cosine = .none) (he : o'.base.bins.energy = .none) :
    ∃ (m : ℕ → ℝ) (total : ℝ),
      (∀ j < o.base.bins.size, (q.base.means P.batchsize)[j]? = some (.ok (m j))) ∧
      (q'.base.means P.batchsize)[0]? = some (.ok total) ∧
      total = ∑ j ∈ Finset.range o.base.bins.size, m j := by
  have hdiv : Divides o.base.bins o'.base.bins := by
    refine ⟨fun _ _ => Or.inl hc, ?_⟩
    rw [he]
    simp [Bins.printed]
  have ac : AboveOne o'.base.bins.cosine ∧ AboveOne o'.base.bins.energy := by
    rw [hc, he]
    exact ⟨(by intro _ _ _ _ _ h; cases h), (by intro _ _ _ _ _ h; cases h)⟩
  obtain ⟨m, s, m', s', h1, h2⟩ := C107_result hsame hinit hinit' ht ht' hb h h' ho ho' hs af ac hdiv
  have hmem' := (List.of_mem_zip ho').1
  have hsize : o'.base.bins.size = 1 := by
    obtain ⟨c, e, -, -, hcr⟩ := hinit'.bins.1 o' hmem'
    simp only [ParticleBins.create, noexcept, bind, Except.bind, Except.ok.injEq] at hcr
    rw [← hcr] at hc he ⊢
    change c = _ at hc
    change e = _ at he
    subst hc
    subst he
    rfl
  obtain ⟨k1, -, k3, -⟩ := h2 0 (by rw [hsize]; exact Nat.one_pos)
  refine ⟨m, m' 0, fun j hj => (h1 j hj).1, k1, k3.trans ?_⟩
  rw [Finset.filter_true_of_mem]
  intro j _ d e _ k hk
  have := C12_flat_index_lt_size (hinit'.bins.1 o' hmem') _ _ _ hk
  omega

/-- **C107** The same holds for what is printed for sensitivities. -/
theorem C107_sensitivities (hsame : SameHistories P P') (hinit : FreshSet P.init)
    (hinit' : FreshSet P'.init) (ht : 1 ≤ P.threads) (ht' : 1 ≤ P'.threads) (hb : 1 ≤ P.batchsize)
    (h : SolveResult P fuel 0 r elapsed) (h' : SolveResult P' fuel' 0 r' elapsed')
    {o q o' q' : Estimator} (ho : (o, q) ∈ P.init.estimators.zip r.estimators)
    (ho' : (o', q') ∈ P'.init.estimators.zip r'.estimators)
    {x y x' y' : Sensitivity} (hx : (x, y) ∈ o.sensitivities.zip q.sensitivities)
    (hx' : (x', y') ∈ o'.sensitivities.zip q'.sensitivities) (hs : x'.surface.id = x.surface.id)
    (hq : x'.perturbation.id = x.perturbation.id)
    (af : AboveOne x.base.bins.cosine ∧ AboveOne x.base.bins.energy)
    (ac : AboveOne x'.base.bins.cosine ∧ AboveOne x'.base.bins.energy)
    (hdiv : Divides x.base.bins x'.base.bins) :
    ∃ m s m' s' : ℕ → ℝ,
      (∀ j < x.base.bins.size, (y.base.means P.batchsize)[j]? = some (.ok (m j)) ∧
        (y.base.stdDevs P.batchsize)[j]? = some (.ok (s j))) ∧
      ∀ i < x'.base.bins.size, (y'.base.means P.batchsize)[i]? = some (.ok (m' i)) ∧
        (y'.base.stdDevs P.batchsize)[i]? = some (.ok (s' i)) ∧
        m' i = ∑ j ∈ (Finset.range x.base.bins.size).filter
          (fun j => BinIn x.base.bins j x'.base.bins i), m j ∧
        s' i ≤ ∑ j ∈ (Finset.range x.base.bins.size).filter
          (fun j => BinIn x.base.bins j x'.base.bins i), s j := by
  obtain ⟨hists, hl, hh, hcan, hp⟩ := printed_run hinit ht hb h
  obtain ⟨hists', hl', hh', hcan', hp'⟩ := printed_run hinit' ht' (by rw [hsame.batchsize]; exact hb) h'
  cases same_lists hsame hl hl' hh hh'
  have hne : hists ≠ [] := by
    rintro rfl
    simp at hl
    omega
  obtain ⟨-, -, -, k3⟩ := (List.forall₂_iff_zip.1 hp).2 ho
  obtain ⟨-, -, -, m3⟩ := (List.forall₂_iff_zip.1 hp').2 ho'
  have k3 := (List.forall₂_iff_zip.1 k3).2 hx
  have m3 := (List.forall₂_iff_zip.1 m3).2 hx'
  have he : effectAtCrossing x'.surface x'.perturbation = effectAtCrossing x.surface x.perturbation := by
    funext p
    unfold effectAtCrossing
    simp only [crossed_id hs, hq]
  rw [hsame.batchsize, he] at m3
  have hmem := (List.of_mem_zip ho).1
  have hmem' := (List.of_mem_zip ho').1
  have hmx := (List.of_mem_zip hx).1
  have hmx' := (List.of_mem_zip hx').1
  refine ⟨_, _, _, _, k3, fun i hi => ⟨(m3 i hi).1, (m3 i hi).2, ?_⟩⟩
  exact divided_means (hinit.bins.2 o hmem x hmx) (hinit'.bins.2 o' hmem' x' hmx') af ac hdiv hne
    (fun z hz p hp h0 => ((hcan z hz p hp o hmem).2 x hmx).2 h0)
    (fun z hz p hp h0 => ((hcan' z hz p hp o' hmem').2 x' hmx').2 (by rw [he]; exact h0)) i

end Runs

/-! ### Example: a ball in a shell -/

/-- What is tallied for one perturbation. -/
noncomputable def shellSensitivity (bins : ParticleBins) : Sensitivity :=
  ⟨⟨"out::q", bins, List.replicate bins.size 0, List.replicate bins.size 0⟩, ball 2 2, absorberPerturbation⟩

/-- What is tallied on the outer sphere. -/
noncomputable def shellEstimator (bins : ParticleBins) : Estimator :=
  ⟨⟨"out", bins, List.replicate bins.size 0, List.replicate bins.size 0⟩, ball 2 2, [shellSensitivity bins]⟩

/-- A thousand histories of a beam through absorbers, with a sensitivity. -/
noncomputable def shellRun (method : Method) (bins : ParticleBins) (threads : ℕ) : Problem :=
  { shellProblem method with
    perturbations := [absorberPerturbation]
    threads := threads
    init := ⟨[shellEstimator bins], 1000⟩ }

theorem shellRun_fresh (method : Method) {bins : ParticleBins} (hb : CreatedParticleBins bins) (threads : ℕ) :
    FreshSet (shellRun method bins threads).init := by
  refine ⟨⟨?_, ?_, ?_, ?_⟩, ⟨?_, ?_⟩, ?_⟩
  · intro e he e' he' _
    rw [List.mem_singleton.1 he, List.mem_singleton.1 he']
  · intro e he q hq q' hq' _
    rw [List.mem_singleton.1 he] at hq hq'
    rw [List.mem_singleton.1 hq, List.mem_singleton.1 hq']
  · intro e he
    rw [List.mem_singleton.1 he]
    exact ⟨List.length_replicate, List.length_replicate⟩
  · intro e he q hq
    rw [List.mem_singleton.1 he] at hq
    rw [List.mem_singleton.1 hq]
    exact ⟨List.length_replicate, List.length_replicate⟩
  · intro e he
    rw [List.mem_singleton.1 he]
    exact hb
  · intro e he q hq
    rw [List.mem_singleton.1 he] at hq
    rw [List.mem_singleton.1 hq]
    exact hb
  · simp [shellRun, shellEstimator, shellSensitivity, EstimatorSet.withTallies, Estimator.withTallies, Scorable.withTally]

theorem shellRun_result (method : Method) {bins : ParticleBins} (hb : CreatedParticleBins bins)
    (hall : ∀ d e, ∃ i, bins.getIndex d e = .ok i) (threads : ℕ) :
    ∃ r k, SolveResult (shellRun method bins threads) (2 ^ 52) 0 r k := by
  refine C32_result_exists (shellRun_fresh method hb threads) fun e _ => ?_
  have hd : Configured (shellRun method bins threads).source.direction := by
    norm_num [shellRun, shellProblem, Configured, UnitVec]
  obtain ⟨b, states, -, h2, -⟩ := C69_straight (P := shellRun method bins threads) (G := 1)
    (shell_wellPosed method) (by
      intro c _ m _ e _ g h1 h2
      simp [specXS, nodeXS]) (R := 2) (by norm_num) (by
      intro x c hc hm
      by_contra hlt
      exact hm (firstCell_unique hc ((shell_cells method x).2.2 (by linarith)) ▸ rfl))
    ⟨rfl, ⟨1, rfl, le_rfl, le_rfl⟩, innerCell,
      (shell_cells method _).1 (by norm_num [shellRun, shellProblem]),
      by simp [innerCell]⟩ hd (fuel := 2 ^ 52) (by norm_num) e
  refine ⟨states, h2, fun p hp => ⟨?_, ?_, ?_⟩⟩
  · intro x hx _
    rw [List.mem_singleton.1 hx]
    exact hall _ _
  · intro x hx q hq
    rw [List.mem_singleton.1 hx] at hq
    rw [List.mem_singleton.1 hq]
    obtain ⟨v, hv⟩ := (C57_effects_present h2 p hp).1 absorberPerturbation (by simp [shellRun])
    unfold Particle.getIndirectEffect at hv
    split at hv
    · next y hy => exact ⟨y, List.mem_of_find?_eq_some hy, by
        have h3 := List.find?_some (p := fun e : Perturbation × ℝ => e.1.id == absorberPerturbation.id) hy
        exact beq_iff_eq.1 h3⟩
    · cases hv
  · intro x hx q hq _
    rw [List.mem_singleton.1 hx] at hq
    rw [List.mem_singleton.1 hq]
    exact hall _ _

/-- The result of such a run has one estimator with one sensitivity. -/
theorem shellRun_one {method : Method} {bins : ParticleBins} {n : ℕ} {r : EstimatorSet} {k : ℕ} (hn : 1 ≤ n)
    (hc : CreatedParticleBins bins) (h : SolveResult (shellRun method bins n) (2 ^ 52) 0 r k) :
    ∃ q y, r.estimators = [q] ∧ q.sensitivities = [y] := by
  obtain ⟨hists, -, -, -, hp⟩ := printed_run (shellRun_fresh method hc n) hn
    (by norm_num [shellRun, shellProblem, slabProblem]) h
  change List.Forall₂ _ [_] _ at hp
  cases hr : r.estimators with
  | nil => rw [hr] at hp; cases hp
  | cons q rest =>
    rw [hr] at hp
    cases hp with
    | cons h1 h2 =>
      cases h2
      obtain ⟨-, -, -, h4⟩ := h1
      cases hy : q.sensitivities with
      | nil => rw [hy] at h4; cases h4
      | cons y rest =>
        rw [hy] at h4
        cases h4 with
        | cons _ h5 =>
          cases h5
          exact ⟨q, y, rfl, hy⟩

/-- Forward and backward, and three energies. -/
noncomputable def sixBins : ParticleBins :=
  ⟨some ⟨1, 0, 0⟩, .boundaries [0], .boundaries [1 / 2, 3 / 2], (3, 1)⟩

/-- Two energies. -/
noncomputable def twoBins : ParticleBins := ⟨none, .none, .boundaries [1 / 2], (2, 1)⟩

theorem sixBins_created : CreatedParticleBins sixBins := by
  refine ⟨.boundaries [0], .boundaries [1 / 2, 3 / 2], .boundaries (bs := [0]) ?_,
    .boundaries (bs := [1 / 2, 3 / 2]) ?_, rfl⟩
  · simp [Bins.createBoundaries, Bins.boundariesIncreasing]
  · norm_num [Bins.createBoundaries, Bins.boundariesIncreasing]

theorem twoBins_created : CreatedParticleBins twoBins := by
  refine ⟨.none, .boundaries [1 / 2], .none, .boundaries (bs := [1 / 2]) ?_, rfl⟩
  simp [Bins.createBoundaries, Bins.boundariesIncreasing]

theorem six_divides_two : Divides sixBins twoBins :=
  ⟨fun r h => (by cases h), by simp [sixBins, twoBins, Bins.printed]⟩

theorem sixBins_above : AboveOne sixBins.cosine ∧ AboveOne sixBins.energy :=
  ⟨(by intro _ _ _ _ _ h; cases h), (by intro _ _ _ _ _ h; cases h)⟩

theorem twoBins_above : AboveOne twoBins.cosine ∧ AboveOne twoBins.energy :=
  ⟨(by intro _ _ _ _ _ h; cases h), (by intro _ _ _ _ _ h; cases h)⟩

/-- Instance of the theorem about bins: whatever goes forward with an energy like one is in the second of
two bins, and not in the first. -/
example : BinIn sixBins 4 twoBins 1 ∧ ¬ BinIn sixBins 4 twoBins 0 := by
  have h6 : sixBins.getIndex ⟨1, 0, 0⟩ 1 = .ok 4 := by
    norm_num [sixBins, ParticleBins.getIndex, Bins.getIndex, upperIdx, Point.dot, bind, Except.bind,
      upperBound_pos, upperBound_zero]
  have h2 : twoBins.getIndex ⟨1, 0, 0⟩ 1 = .ok 1 := by
    norm_num [twoBins, ParticleBins.getIndex, Bins.getIndex, upperIdx, bind, Except.bind,
      upperBound_pos, upperBound_zero]
  refine ⟨C107_bins sixBins_created twoBins_created sixBins_above twoBins_above six_divides_two h6 h2,
    fun h => ?_⟩
  have := h _ _ h6 _ h2
  omega

/-- Instance of the theorems about runs: a thousand histories with six bins on three threads and with two
bins on eight have results, and those with two bins are sums. -/
example (method : Method) : ∃ r k r' k' q q' y y',
    SolveResult (shellRun method sixBins 3) (2 ^ 52) 0 r k ∧
    SolveResult (shellRun method twoBins 8) (2 ^ 52) 0 r' k' ∧
    r.estimators = [q] ∧ r'.estimators = [q'] ∧ q.sensitivities = [y] ∧ q'.sensitivities = [y'] ∧
    (∃ m m' : ℕ → ℝ, (∀ j < 6, (q.base.means 1000)[j]? = some (.ok (m j))) ∧
      ∀ i < 2, (q'.base.means 1000)[i]? = some (.ok (m' i)) ∧
        m' i = ∑ j ∈ (Finset.range 6).filter (fun j => BinIn sixBins j twoBins i), m j) ∧
    ∃ m m' : ℕ → ℝ, (∀ j < 6, (y.base.means 1000)[j]? = some (.ok (m j))) ∧
      ∀ i < 2, (y'.base.means 1000)[i]? = some (.ok (m' i)) ∧
        m' i = ∑ j ∈ (Finset.range 6).filter (fun j => BinIn sixBins j twoBins i), m j := by
  obtain ⟨r, k, h⟩ := shellRun_result method sixBins_created (fun d e => ⟨_, rfl⟩) 3
  obtain ⟨r', k', h'⟩ := shellRun_result method twoBins_created (fun d e => ⟨_, rfl⟩) 8
  have hf := shellRun_fresh method sixBins_created 3
  have hf' := shellRun_fresh method twoBins_created 8
  have hsame : SameHistories (shellRun method sixBins 3) (shellRun method twoBins 8) :=
    ⟨rfl, rfl, rfl, rfl, rfl, rfl⟩
  have hb : 1 ≤ (shellRun method sixBins 3).batchsize := by norm_num [shellRun, shellProblem, slabProblem]
  obtain ⟨q, y, e1, e2⟩ := shellRun_one (by norm_num) sixBins_created h
  obtain ⟨q', y', e1', e2'⟩ := shellRun_one (by norm_num) twoBins_created h'
  refine ⟨r, k, r', k', q, q', y, y', h, h', e1, e1', e2, e2', ?_, ?_⟩
  · obtain ⟨m, _, m', _, h1, h2⟩ := C107_result hsame hf hf' (by norm_num [shellRun])
      (by norm_num [shellRun]) hb h h' (o := shellEstimator sixBins) (o' := shellEstimator twoBins) (q := q)
      (q' := q') (by rw [e1]; exact List.mem_cons_self)
      (by rw [e1']; exact (List.mem_cons_self : (shellEstimator twoBins, q') ∈ [(shellEstimator twoBins, q')]))
      rfl sixBins_above twoBins_above six_divides_two
    exact ⟨m, m', fun j hj => (h1 j hj).1, fun i hi => ⟨(h2 i hi).1, (h2 i hi).2.2.1⟩⟩
  · obtain ⟨m, _, m', _, h1, h2⟩ := C107_sensitivities hsame hf hf' (by norm_num [shellRun])
      (by norm_num [shellRun]) hb h h' (o := shellEstimator sixBins) (o' := shellEstimator twoBins) (q := q)
      (q' := q') (by rw [e1]; exact List.mem_cons_self)
      (by rw [e1']; exact (List.mem_cons_self : (shellEstimator twoBins, q') ∈ [(shellEstimator twoBins, q')]))
      (x := shellSensitivity sixBins) (x' := shellSensitivity twoBins)
      (y := y) (y' := y') (by rw [e2]; exact List.mem_cons_self)
      (by rw [e2']; exact (List.mem_cons_self : (shellSensitivity twoBins, y') ∈ [(shellSensitivity twoBins, y')]))
      rfl rfl sixBins_above twoBins_above six_divides_two
    exact ⟨m, m', fun j hj => (h1 j hj).1, fun i hi => ⟨(h2 i hi).1, (h2 i hi).2.2.1⟩⟩

/-- Instance of the total and of the theorem about equal bins: the six means add up to the one that is
printed without bins, and another number of threads changes nothing. -/
example (method : Method) : ∃ r k r' k' r'' k'' q q' q'',
    SolveResult (shellRun method sixBins 3) (2 ^ 52) 0 r k ∧ r.estimators = [q] ∧
    SolveResult (shellRun method oneBin 8) (2 ^ 52) 0 r' k' ∧ r'.estimators = [q'] ∧
    SolveResult (shellRun method sixBins 1) (2 ^ 52) 0 r'' k'' ∧ r''.estimators = [q''] ∧
    (∃ (m : ℕ → ℝ) (total : ℝ), (∀ j < 6, (q.base.means 1000)[j]? = some (.ok (m j))) ∧
      (q'.base.means 1000)[0]? = some (.ok total) ∧ total = ∑ j ∈ Finset.range 6, m j) ∧
    q''.base.means 1000 = q.base.means 1000 ∧ q''.base.stdDevs 1000 = q.base.stdDevs 1000 := by
  obtain ⟨r, k, h⟩ := shellRun_result method sixBins_created (fun d e => ⟨_, rfl⟩) 3
  obtain ⟨r', k', h'⟩ := shellRun_result method oneBin_created (fun d e => ⟨_, rfl⟩) 8
  obtain ⟨r'', k'', h''⟩ := shellRun_result method sixBins_created (fun d e => ⟨_, rfl⟩) 1
  obtain ⟨q, -, e1, -⟩ := shellRun_one (by norm_num) sixBins_created h
  obtain ⟨q', -, e1', -⟩ := shellRun_one (by norm_num) oneBin_created h'
  obtain ⟨q'', -, e1'', -⟩ := shellRun_one (by norm_num) sixBins_created h''
  have hb : 1 ≤ (shellRun method sixBins 3).batchsize := by norm_num [shellRun, shellProblem, slabProblem]
  refine ⟨r, k, r', k', r'', k'', q, q', q'', h, e1, h', e1', h'', e1'', ?_, ?_⟩
  · exact C107_total (P := shellRun method sixBins 3) (P' := shellRun method oneBin 8)
      ⟨rfl, rfl, rfl, rfl, rfl, rfl⟩ (shellRun_fresh method sixBins_created 3)
      (shellRun_fresh method oneBin_created 8) (by norm_num [shellRun]) (by norm_num [shellRun]) hb h h'
      (o := shellEstimator sixBins) (o' := shellEstimator oneBin) (q := q) (q' := q')
      (by rw [e1]; exact List.mem_cons_self) (by rw [e1']; exact List.mem_cons_self) rfl sixBins_above
      rfl rfl
  · exact C107_same (P := shellRun method sixBins 3) (P' := shellRun method sixBins 1)
      ⟨rfl, rfl, rfl, rfl, rfl, rfl⟩ (shellRun_fresh method sixBins_created 3)
      (shellRun_fresh method sixBins_created 1) (by norm_num [shellRun]) (by norm_num [shellRun]) hb h h''
      (o := shellEstimator sixBins) (o' := shellEstimator sixBins) (q := q) (q' := q'')
      (by rw [e1]; exact List.mem_cons_self) (by rw [e1'']; exact List.mem_cons_self) rfl rfl

end Minimc.Props
