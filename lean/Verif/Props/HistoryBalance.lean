import Verif.Lemmas.HistoryBalance
import Verif.Props.Solve
import Verif.Props.Chain

/-! # Property C92: every neutron that is born dies once -/

namespace Minimc.Props

open Classical Spec

/-- The states of a history in terms of its particles. -/
theorem history_banks {P : Problem} {fuel e : ℕ} {states : List Particle}
    (h : P.history fuel e = .ok states) :
    ends states = 1 + bornInFission states ∧
      ∀ q ∈ states, (q.event ≠ .fission → q.secondaries = []) ∧
        (q.event = .fission → HasFissile P.world) := by
  obtain ⟨born, l, _, hl, hperm⟩ := C30_history_states h
  obtain ⟨h1, h2⟩ := forest_balance hl (by
    intro p hp
    rw [List.mem_singleton.1 hp]
    exact ⟨rfl, rfl⟩)
  refine ⟨?_, fun q hq => h2 q (hperm.mem_iff.1 hq)⟩
  have e1 : ends states = ends (l.flatMap Prod.snd) := by
    unfold ends
    rw [countEvent_perm hperm, countEvent_perm hperm, countEvent_perm hperm]
  rw [e1, h1, bornInFission_perm hperm]
  rfl

/-- **C92** In every history that runs to its end, the captures, leaks and fissions are as many as
the neutrons: the one from the source and those that the fissions have put into the bank. -/
theorem C92_balance {P : Problem} {fuel e : ℕ} {states : List Particle}
    (h : P.history fuel e = .ok states) :
    countEvent .capture states + countEvent .leak states + countEvent .fission states =
      1 + bornInFission states :=
  (history_banks h).1

/-- **C92** Only fissions put neutrons into the bank, and there are fissions only in a world with a
cell whose material has a nuclide with a fission reaction. -/
theorem C92_fissions {P : Problem} {fuel e : ℕ} {states : List Particle}
    (h : P.history fuel e = .ok states) : ∀ q ∈ states,
    (q.event ≠ .fission → q.secondaries = []) ∧ (q.event = .fission → HasFissile P.world) :=
  (history_banks h).2

/-- Instance: a history with a fission, whose neutron leaves the ball. -/
example : ∃ states, (emberProblem .surfaceTracking).history 2 4 = .ok states ∧
    states.length = 2 ∧ countEvent .capture states + countEvent .leak states +
      countEvent .fission states = 1 + bornInFission states := by
  obtain ⟨states, h, hl, _⟩ := ember_four
  exact ⟨states, h, hl, C92_balance h⟩

/-- **C92** Without fission reactions every history ends with one capture or one leak. -/
theorem C92_one_end {P : Problem} (hf : ¬ HasFissile P.world) {fuel e : ℕ}
    {states : List Particle} (h : P.history fuel e = .ok states) :
    countEvent .capture states + countEvent .leak states = 1 ∧
      ∀ q ∈ states, q.event ≠ .fission ∧ q.secondaries = [] := by
  have h2 := C92_fissions h
  have hne : ∀ q ∈ states, q.event ≠ .fission := fun q hq he => hf ((h2 q hq).2 he)
  have h1 := C92_balance h
  rw [countEvent_zero hne, bornInFission_zero hne] at h1
  exact ⟨h1, fun q hq => ⟨hne q hq, (h2 q hq).1 (hne q hq)⟩⟩

/-- **C92** All histories of a solution together: without fission reactions captures and leaks
are as many as histories. -/
theorem C92_batch {P : Problem} {fuel k : ℕ} {r : EstimatorSet} (hinit : FreshSet P.init)
    (ht : 1 ≤ P.threads) (hf : ¬ HasFissile P.world) (h : SolveResult P fuel 0 r k) :
    ∃ hists : List (List Particle), hists.length = P.batchsize ∧
      (∀ e x, hists[e]? = some x → P.history fuel e = .ok x) ∧
      afterHistories P.init hists = .ok r ∧
      (hists.map (countEvent .capture)).sum + (hists.map (countEvent .leak)).sum =
        P.batchsize := by
  obtain ⟨hists, h1, h2, h3⟩ := C32_as_if_sequential hinit ht h
  refine ⟨hists, h1, h2, h3, ?_⟩
  have hall : ∀ x ∈ hists, countEvent .capture x + countEvent .leak x = 1 := by
    intro x hx
    obtain ⟨e, he⟩ := List.mem_iff_getElem?.1 hx
    exact (C92_one_end hf (h2 e x he)).1
  rw [← h1]
  clear h1 h2 h3
  induction hists with
  | nil => rfl
  | cons x xs ih =>
    have := hall x (by simp)
    have := ih (fun y hy => hall y (by simp [hy]))
    simp only [List.map_cons, List.sum_cons, List.length_cons]
    omega

/-! ## What an estimator of leakage prints -/

/-- Every particle that crosses the surface in one of the histories leaves the problem there. -/
def OnlyLeaks (P : Problem) (fuel : ℕ) (s : SurfaceObj) : Prop :=
  ∀ e states, P.history fuel e = .ok states → ∀ q ∈ states, Crossed s q → q.event = .leak

theorem sum_crossings_le (s : SurfaceObj) (bins : ParticleBins) (states : List Particle) (n : ℕ) :
    ((List.range n).map (crossings s bins states)).sum ≤
      states.countP (fun q => decide (Crossed s q)) := by
  induction states with
  | nil =>
    unfold crossings
    simp
  | cons q rest ih =>
    have h1 : ∀ i, crossings s bins (q :: rest) i = crossings s bins rest i +
        if Crossed s q ∧ bins.getIndex q.direction q.energy.toReal = .ok i then 1 else 0 := by
      intro i
      unfold crossings
      rw [List.countP_cons]
      congr 1
      by_cases hc : Crossed s q ∧ bins.getIndex q.direction q.energy.toReal = .ok i <;> simp [hc]
    have h2 : ((List.range n).map (crossings s bins (q :: rest))).sum =
        ((List.range n).map (crossings s bins rest)).sum + ((List.range n).map (fun i =>
          if Crossed s q ∧ bins.getIndex q.direction q.energy.toReal = .ok i then 1 else 0)).sum := by
      rw [← List.sum_map_add]
      congr 1
      apply List.map_congr_left
      intro i _
      exact h1 i
    have h3 : ((List.range n).map (fun i => if Crossed s q ∧
        bins.getIndex q.direction q.energy.toReal = .ok i then 1 else 0)).sum ≤
        if Crossed s q then 1 else 0 := by
      by_cases hc : Crossed s q
      · simp only [hc, true_and, if_true]
        rcases hx : bins.getIndex q.direction q.energy.toReal with er | j
        · simp
        · have : ∀ i, ((Except.ok j : Res ℕ) = .ok i) ↔ i = j := fun i => by
            rw [Except.ok.injEq, eq_comm]
          simp only [this]
          clear ih h1 h2 this hx
          induction n with
          | zero => simp
          | succ n ihn =>
            rw [List.range_succ, List.map_append, List.sum_append]
            by_cases hj : n = j
            · have : ((List.range n).map (fun i => if i = j then 1 else 0)).sum = 0 := by
                apply List.sum_eq_zero
                intro x hx
                obtain ⟨i, hi, rfl⟩ := List.mem_map.1 hx
                have := List.mem_range.1 hi
                rw [if_neg (by omega)]
              rw [this, hj]
              simp
            · simpa [hj] using ihn
      · simp [hc]
    rw [h2, List.countP_cons]
    have h4 : (if (decide (Crossed s q)) = true then 1 else 0) = if Crossed s q then 1 else 0 := by
      by_cases hc : Crossed s q <;> simp [hc]
    rw [h4]
    omega

theorem crossings_le_leaks {s : SurfaceObj} {states : List Particle}
    (h : ∀ q ∈ states, Crossed s q → q.event = .leak) :
    states.countP (fun q => decide (Crossed s q)) ≤ countEvent .leak states := by
  unfold countEvent
  rw [← List.countP_eq_length_filter]
  apply List.countP_mono_left
  intro q hq hc
  simpa using h q hq (by simpa using hc)

theorem sum_counts (xs : List ℕ) : (xs.map (fun x : ℕ => (x : ℝ))).sum = (xs.sum : ℝ) := by
  induction xs with
  | nil => simp
  | cons x xs ih => rw [List.map_cons, List.sum_cons, ih, List.sum_cons, Nat.cast_add]

theorem proportion_error {xs : List ℕ} (hx : ∀ x ∈ xs, x ≤ 1) (hne : xs ≠ []) :
    standardError (xs.map (fun x : ℕ => (x : ℝ))) = Real.sqrt ((xs.sum : ℝ) / xs.length *
      (1 - (xs.sum : ℝ) / xs.length) / xs.length) := by
  have hn : (xs.length : ℝ) ≠ 0 := by exact_mod_cast (List.length_pos_iff.2 hne).ne'
  have hsum := sum_counts xs
  have key : ∀ m : ℝ, ((xs.map (fun x : ℕ => (x : ℝ))).map (fun x => (x - m) ^ 2)).sum =
      (xs.sum : ℝ) * (1 - 2 * m) + xs.length * m ^ 2 := by
    intro m
    clear hne hn hsum
    induction xs with
    | nil => simp
    | cons x xs ih =>
      have h01 : (x : ℝ) ^ 2 = x := by
        have := hx x (by simp)
        interval_cases x <;> norm_num
      have := ih (fun y hy => hx y (by simp [hy]))
      simp only [List.map_cons, List.sum_cons, List.length_cons, Nat.cast_add, Nat.cast_one]
      rw [this]
      linear_combination h01
  unfold standardError
  congr 1
  have hm : mean (xs.map (fun x : ℕ => (x : ℝ))) = (xs.sum : ℝ) / xs.length := by
    unfold mean
    rw [hsum, List.length_map]
  rw [hm]
  conv_lhs => rw [mean]
  rw [key, List.length_map, List.length_map]
  field_simp
  ring

/-- **C92** Without fission reactions an estimator on a surface through which particles only leave
prints proportions: in each bin the fraction `n / N` of the `N` histories whose neutron left
through it, all bins together not more than one, and as error that of a proportion. -/
theorem C92_leakage {P : Problem} {fuel k : ℕ} {r : EstimatorSet} (hinit : FreshSet P.init)
    (ht : 1 ≤ P.threads) (hN : 1 ≤ P.batchsize) (hf : ¬ HasFissile P.world)
    (h : SolveResult P fuel 0 r k) :
    List.Forall₂ (fun e e' : Estimator => OnlyLeaks P fuel e.surface →
      ∃ hits : ℕ → ℕ, ((List.range e.base.bins.size).map hits).sum ≤ P.batchsize ∧
        ∀ i < e.base.bins.size,
          (e'.base.means P.batchsize)[i]? = some (.ok ((hits i : ℝ) / P.batchsize)) ∧
          (e'.base.stdDevs P.batchsize)[i]? = some (.ok (Real.sqrt ((hits i : ℝ) / P.batchsize *
            (1 - (hits i : ℝ) / P.batchsize) / P.batchsize)))) P.init.estimators r.estimators := by
  obtain ⟨hists, h1, h2, h3⟩ := C32_as_if_sequential hinit ht h
  have hne : hists ≠ [] := by
    intro h0
    rw [h0] at h1
    simp at h1
    omega
  have hp := C35_printed hinit.shaped hinit.bins hinit.zero hne h3
  rw [h1] at hp
  refine hp.imp ?_
  intro e e' he hout
  have hbin := he.2.2.2.1
  clear he
  have hall : ∀ x ∈ hists, ((List.range e.base.bins.size).map
      (crossings e.surface e.base.bins x)).sum ≤ 1 := by
    intro x hx
    obtain ⟨n, hn⟩ := List.mem_iff_getElem?.1 hx
    have hh := h2 n x hn
    have h4 := sum_crossings_le e.surface e.base.bins x e.base.bins.size
    have h5 := crossings_le_leaks (hout n x hh)
    have h6 := (C92_one_end hf hh).1
    omega
  refine ⟨fun i => (hists.map (crossings e.surface e.base.bins · i)).sum, ?_, fun i hi => ?_⟩
  · rw [← h1]
    clear hp hbin h1 h2 h3 hne
    induction hists with
    | nil => simp
    | cons x xs ih =>
      have a := hall x (by simp)
      have b := ih (fun y hy => hall y (by simp [hy]))
      simp only [List.map_cons, List.sum_cons, List.length_cons]
      rw [List.sum_map_add]
      omega
  · obtain ⟨b1, b2⟩ := hbin i hi
    have hone : ∀ x ∈ hists.map (crossings e.surface e.base.bins · i), x ≤ 1 := by
      intro x hx
      obtain ⟨y, hy, rfl⟩ := List.mem_map.1 hx
      refine le_trans ?_ (hall y hy)
      exact List.single_le_sum (fun _ _ => Nat.zero_le _) _
        (List.mem_map.2 ⟨i, List.mem_range.2 hi, rfl⟩)
    have hmap : hists.map (historyScore e.base.bins
        (fun p => if Crossed e.surface p then 1 else 0) · i) =
        (hists.map (crossings e.surface e.base.bins · i)).map (fun x : ℕ => (x : ℝ)) := by
      rw [List.map_map]
      apply List.map_congr_left
      intro x _
      exact historyScore_crossings ..
    have hlen : ((hists.map (crossings e.surface e.base.bins · i)).length : ℝ) = P.batchsize := by
      rw [List.length_map, h1]
    rw [hmap] at b1 b2
    rw [proportion_error hone (by simpa using hne), hlen] at b2
    refine ⟨?_, b2⟩
    rw [b1]
    congr 2
    unfold mean
    rw [List.length_map, hlen]
    congr 1
    exact sum_counts _

theorem slab_not_fissile : ¬ HasFissile (absorbingWorld slabWalls 0) := by
  rintro ⟨c, hc, m, hm, e, he, t, i, hi, hl⟩
  simp only [absorbingWorld, List.mem_cons, List.not_mem_nil, or_false] at hc
  rcases hc with rfl | rfl
  · cases hm
    simp only [absorbing, List.mem_singleton] at he
    subst he
    cases hi
    obtain ⟨r, hr, hrf⟩ := hl
    simp only [List.mem_singleton] at hr
    rw [hr] at hrf
    cases hrf
  · cases hm

/-- Instance: 1000 histories on 8 threads in a slab. -/
example : ∃ r k, SolveResult (slabProblem 1000 8) 1 0 r k ∧
    ¬ HasFissile (slabProblem 1000 8).world ∧ OnlyLeaks (slabProblem 1000 8) 1 plane3 := by
  obtain ⟨r, k, h⟩ := C32_result_exists (slabProblem_fresh 1000 8) (slabProblem_histories 1000 8)
  refine ⟨r, k, h, slab_not_fissile, ?_⟩
  intro e states hs q hq hc
  obtain ⟨q', h1, h2, _⟩ := slabProblem_history 1000 8 e
  have h3 := (C92_one_end (P := slabProblem 1000 8) slab_not_fissile h1).1
  rw [h1] at hs
  rw [← Except.ok.inj hs] at hq
  rw [List.mem_singleton.1 hq]
  unfold countEvent at h3
  by_contra hne
  obtain ⟨s, _, _, he⟩ := h2
  rcases he with he | he
  · simp [he] at h3
  · exact hne he

end Minimc.Props
