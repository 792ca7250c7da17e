import Verif.Lemmas.Merge

/-! # Properties C34, C35, C36, C37: scoring, standard deviations and merging -/

open Classical

namespace Minimc.Props

open Spec

theorem getD_range_map {n i : ℕ} (f : ℕ → ℝ) (h : i < n) :
    ((List.range n).map f).getD i 0 = f i := by
  simp [List.getD, h]

theorem historyAdded_withTally {b : Minimc.Scorable} {t u : ℕ → ℝ × ℝ} {f : Particle → ℝ}
    {states : List Particle}
    (h : ∀ i, u i = t i + historyTally b.bins f states i) :
    HistoryAdded f states (b.withTally t) (b.withTally u) := by
  refine ⟨rfl, rfl, by simp [Scorable.withTally], by simp [Scorable.withTally], ?_, ?_⟩
  · intro i hi
    have hi' : i < b.bins.size := by simpa [Scorable.withTally] using hi
    simp only [Scorable.withTally]
    rw [getD_range_map _ hi', getD_range_map _ hi', h i]
    rfl
  · intro i hi
    have hi' : i < b.bins.size := by simpa [Scorable.withTally] using hi
    simp only [Scorable.withTally]
    rw [getD_range_map _ hi', getD_range_map _ hi', h i]
    rfl

theorem addHistory_eq {s s' : EstimatorSet} (hb : s.BinsCreated)
    {states : List Particle} (t c : Tallies) (hst : s = s.withTallies t)
    (h : s.addHistory states = .ok s') (hc : Contribution s states c) :
    s' = s.withTallies (t + c) := by
  have h1 := addHistory_ok hb (addHistory_inv h) t c hc
  rw [← hst, h] at h1
  exact Except.ok.inj h1

/-! ## C34 -/

/-- Committing a history adds, in every bin of every estimator and sensitivity, the sum of the
scores made in that bin to the score and the square of that sum to the squared score. -/
theorem C34_commit {s s' : EstimatorSet} (hs : s.Shaped) (hb : s.BinsCreated)
    {states : List Particle} (h : s.addHistory states = .ok s') :
    s'.totalWeight = s.totalWeight ∧
    List.Forall₂ (fun e e' : Estimator => e'.surface = e.surface ∧
      HistoryAdded (fun p => if Crossed e.surface p then 1 else 0) states e.base e'.base ∧
      List.Forall₂ (fun q q' : Sensitivity => q'.surface = q.surface ∧
        q'.perturbation = q.perturbation ∧
        HistoryAdded (effectAtCrossing q.surface q.perturbation) states q.base q'.base)
        e.sensitivities e'.sensitivities) s.estimators s'.estimators := by
  obtain ⟨t, ht⟩ := shaped_eq_withTallies hs
  obtain ⟨c, hc⟩ := contribution_exists hs.names hs.sensitivityNames states
  have h' := addHistory_eq hb t c ht h hc
  subst h'
  refine ⟨rfl, ?_⟩
  have key : List.Forall₂ (fun e e' : Estimator => e'.surface = e.surface ∧
      HistoryAdded (fun p => if Crossed e.surface p then 1 else 0) states e.base e'.base ∧
      List.Forall₂ (fun q q' : Sensitivity => q'.surface = q.surface ∧
        q'.perturbation = q.perturbation ∧
        HistoryAdded (effectAtCrossing q.surface q.perturbation) states q.base q'.base)
        e.sensitivities e'.sensitivities) (s.withTallies t).estimators
        (s.withTallies (t + c)).estimators := by
    unfold EstimatorSet.withTallies
    dsimp only
    rw [List.forall₂_map_left_iff, List.forall₂_map_right_iff, List.forall₂_same]
    intro e he
    refine ⟨rfl, ?_, ?_⟩
    · apply historyAdded_withTally
      intro i
      change t e.base.name none i + c e.base.name none i = _
      rw [hc.base e he i]
      rfl
    · unfold Estimator.withTallies
      dsimp only
      rw [List.forall₂_map_left_iff, List.forall₂_map_right_iff, List.forall₂_same]
      intro q hq
      refine ⟨rfl, rfl, ?_⟩
      apply historyAdded_withTally
      intro i
      change t e.base.name (some q.base.name) i + c e.base.name (some q.base.name) i = _
      rw [hc.sensitivities e he q hq i]
  rw [← ht] at key
  exact key

/-- A history can be scored and committed exactly when each of its states can be scored. -/
theorem C34_commit_iff {s : EstimatorSet} (hs : s.Shaped) (hb : s.BinsCreated)
    (states : List Particle) :
    (∃ s', s.addHistory states = .ok s') ↔ ∀ p ∈ states, CanScore s p := by
  constructor
  · rintro ⟨s', h⟩
    exact addHistory_inv h
  · intro h
    obtain ⟨t, ht⟩ := shaped_eq_withTallies hs
    obtain ⟨c, hc⟩ := contribution_exists hs.names hs.sensitivityNames states
    have := addHistory_ok hb h t c hc
    rw [← ht] at this
    exact ⟨_, this⟩

/-- A history whose states all score zero leaves no trace. -/
theorem C34_zero_leaves_no_trace {s : EstimatorSet} (hs : s.Shaped) (hb : s.BinsCreated)
    (states : List Particle) (h0 : ∀ p ∈ states, ∀ e ∈ s.estimators,
      ¬ Crossed e.surface p ∧ ∀ q ∈ e.sensitivities, q.surface = e.surface ∧
        ∃ x ∈ p.indirectEffects, x.1.id = q.perturbation.id) :
    s.addHistory states = .ok s := by
  obtain ⟨t, ht⟩ := shaped_eq_withTallies hs
  have hnone : ∀ (b : ParticleBins) (f : Particle → ℝ) (i : ℕ), (∀ p ∈ states, f p = 0) →
      historyTally b f states i = 0 := by
    intro b f i hf
    have : historyScore b f states i = 0 := by
      unfold historyScore
      apply List.sum_eq_zero
      intro x hx
      obtain ⟨p, hp, rfl⟩ := List.mem_map.1 hx
      rw [hf p hp]
      exact ite_self _
    unfold historyTally
    rw [this]
    simp
  have hzero : ∀ e ∈ s.estimators, ∀ q ∈ e.sensitivities, ∀ p ∈ states,
      effectAtCrossing q.surface q.perturbation p = 0 := by
    intro e he q hq p hp
    unfold effectAtCrossing
    rw [if_neg]
    rw [((h0 p hp e he).2 q hq).1]
    exact (h0 p hp e he).1
  have hc : Contribution s states 0 := by
    refine ⟨?_, ?_⟩
    · intro e he i
      rw [hnone]
      · rfl
      · intro p hp
        exact if_neg (h0 p hp e he).1
    · intro e he q hq i
      rw [hnone]
      · rfl
      · exact hzero e he q hq
  have := addHistory_ok hb (fun p hp => ⟨fun e he hcr => absurd hcr (h0 p hp e he).1,
    fun e he q hq => ((h0 p hp e he).2 q hq).2,
    fun e he q hq hne => absurd (hzero e he q hq p hp) hne⟩) t 0 hc
  rw [← ht, add_zero, ← ht] at this
  exact this

/-- Bins without any division, used in the instances. -/
def oneBin : ParticleBins := ⟨none, .none, .none, (1, 1)⟩

theorem oneBin_created : CreatedParticleBins oneBin :=
  ⟨.none, .none, .none, .none, rfl⟩

/-- A perturbation used in the instances. -/
def exampleQ : Perturbation := ⟨5, "q", 7⟩

/-- A set with one estimator and one sensitivity that have scored before. -/
noncomputable def exampleSet (x : ℝ) (plane : SurfaceObj) : EstimatorSet where
  estimators := [{
    base := ⟨"right", oneBin, [x], [10]⟩
    surface := plane
    sensitivities := [⟨⟨"right::q", oneBin, [20], [30]⟩, plane, exampleQ⟩] }]
  totalWeight := 1

theorem exampleSet_shaped (x : ℝ) (plane : SurfaceObj) : (exampleSet x plane).Shaped := by
  refine ⟨?_, ?_, ?_, ?_⟩
  · intro e he e' he' _
    simp only [exampleSet, List.mem_singleton] at he he'
    rw [he, he']
  · intro e he q hq q' hq' _
    simp only [exampleSet, List.mem_singleton] at he
    subst he
    simp only [List.mem_singleton] at hq hq'
    rw [hq, hq']
  · intro e he
    simp only [exampleSet, List.mem_singleton] at he
    subst he
    exact ⟨rfl, rfl⟩
  · intro e he q hq
    simp only [exampleSet, List.mem_singleton] at he
    subst he
    simp only [List.mem_singleton] at hq
    subst hq
    exact ⟨rfl, rfl⟩

theorem exampleSet_bins (x : ℝ) (plane : SurfaceObj) : (exampleSet x plane).BinsCreated := by
  refine ⟨?_, ?_⟩
  · intro e he
    simp only [exampleSet, List.mem_singleton] at he
    subst he
    exact oneBin_created
  · intro e he q hq
    simp only [exampleSet, List.mem_singleton] at he
    subst he
    simp only [List.mem_singleton] at hq
    subst hq
    exact oneBin_created

/-- A state that has just crossed the plane with accumulated effect `x`. -/
noncomputable def exampleState (x : ℝ) (plane : SurfaceObj) (e : Event) : Particle :=
  { Particle.ofBorn ⟨⟨0, 0, 0⟩, ⟨1, 0, 0⟩, .group 1, .neutron, 1, none⟩ with
    indirectEffects := [(exampleQ, x)]
    event := e
    currentSurface := some plane }

theorem exampleState_canScore (x y : ℝ) (plane : SurfaceObj) (ev : Event) :
    CanScore (exampleSet y plane) (exampleState x plane ev) := by
  refine ⟨?_, ?_, ?_⟩
  · intro e he _
    simp only [exampleSet, List.mem_singleton] at he
    subst he
    exact ⟨0, rfl⟩
  · intro e he q hq
    simp only [exampleSet, List.mem_singleton] at he
    subst he
    simp only [List.mem_singleton] at hq
    subst hq
    exact ⟨(exampleQ, x), List.mem_singleton.2 rfl, rfl⟩
  · intro e he q hq _
    simp only [exampleSet, List.mem_singleton] at he
    subst he
    simp only [List.mem_singleton] at hq
    subst hq
    exact ⟨0, rfl⟩

/-- Instance: two crossings with effects 2 and 3 and a collision in between.  The current gains
2 and 4, the sensitivity 5 and 25. -/
example (plane : SurfaceObj) :
    ∃ s', (exampleSet 1 plane).addHistory [exampleState 2 plane .surfaceCross,
      exampleState 9 plane .scatter, exampleState 3 plane .leak] = .ok s' ∧
      s'.estimators.map (fun e => (e.base.scores, e.base.squareScores)) = [([3], [14])] ∧
      s'.estimators.flatMap (fun e => e.sensitivities.map
        (fun q => (q.base.scores, q.base.squareScores))) = [([25], [55])] := by
  obtain ⟨s', h⟩ := (C34_commit_iff (exampleSet_shaped 1 plane) (exampleSet_bins 1 plane)
    [exampleState 2 plane .surfaceCross, exampleState 9 plane .scatter,
      exampleState 3 plane .leak]).2 (by
    intro p hp
    simp only [List.mem_cons, List.not_mem_nil, or_false] at hp
    rcases hp with rfl | rfl | rfl <;> exact exampleState_canScore _ _ _ _)
  refine ⟨s', h, ?_⟩
  have h1 : Crossed plane (exampleState 2 plane .surfaceCross) :=
    ⟨plane, rfl, rfl, Or.inl rfl⟩
  have h2 : ¬ Crossed plane (exampleState 9 plane .scatter) := by
    rintro ⟨_, _, _, h | h⟩ <;> cases h
  have h3 : Crossed plane (exampleState 3 plane .leak) := ⟨plane, rfl, rfl, Or.inr rfl⟩
  have hi : ∀ x e, oneBin.getIndex (exampleState x plane e).direction
      (exampleState x plane e).energy.toReal = .ok 0 := fun _ _ => rfl
  obtain ⟨_, hf⟩ := C34_commit (exampleSet_shaped 1 plane) (exampleSet_bins 1 plane) h
  unfold exampleSet at hf
  dsimp only at hf
  rw [List.forall₂_cons_left_iff] at hf
  obtain ⟨e', rest, ⟨_, hb, hs⟩, hnil, hes⟩ := hf
  rw [List.forall₂_nil_left_iff] at hnil
  subst hnil
  dsimp only at hb hs
  rw [List.forall₂_cons_left_iff] at hs
  obtain ⟨q', rest, ⟨_, _, hq⟩, hnil, hqs⟩ := hs
  rw [List.forall₂_nil_left_iff] at hnil
  subst hnil
  rw [hes]
  have one : ∀ (l : List ℝ) (a : ℝ), l.length = 1 → l.getD 0 0 = a → l = [a] := by
    intro l a hl ha
    match l, hl with
    | [b], _ => simpa using ha
  have hH : historyScore oneBin (fun p => if Crossed plane p then 1 else 0)
      [exampleState 2 plane .surfaceCross, exampleState 9 plane .scatter,
        exampleState 3 plane .leak] 0 = 2 := by
    unfold historyScore
    simp only [List.map_cons, List.map_nil, hi, if_true, h1, h2, h3, if_false]
    norm_num
  have hH' : historyScore oneBin (effectAtCrossing plane exampleQ)
      [exampleState 2 plane .surfaceCross, exampleState 9 plane .scatter,
        exampleState 3 plane .leak] 0 = 5 := by
    unfold historyScore effectAtCrossing
    simp only [List.map_cons, List.map_nil, hi, if_true, h1, h2, h3, if_false]
    norm_num [exampleState, exampleQ]
  have r1 := hb.scores 0 (by simp)
  have r2 := hb.squares 0 (by simp)
  have r3 := hq.scores 0 (by simp)
  have r4 := hq.squares 0 (by simp)
  dsimp only at r1 r2 r3 r4
  rw [hH] at r1 r2
  rw [hH'] at r3 r4
  simp only [List.getD_cons_zero] at r1 r2 r3 r4
  norm_num at r1 r2 r3 r4
  constructor
  · rw [List.map_singleton, one _ 3 hb.length (by simpa using r1), one _ 14 hb.squareLength (by simpa using r2)]
  · rw [List.flatMap_singleton, hqs, List.map_singleton, one _ 25 hq.length (by simpa using r3),
      one _ 55 hq.squareLength (by simpa using r4)]

/-- Instance: a scatter leaves no trace. -/
example (plane : SurfaceObj) :
    (exampleSet 1 plane).addHistory [exampleState 9 plane .scatter] = .ok (exampleSet 1 plane) := by
  apply C34_zero_leaves_no_trace (exampleSet_shaped 1 plane) (exampleSet_bins 1 plane)
  intro p hp e he
  rw [List.mem_singleton.1 hp]
  simp only [exampleSet, List.mem_singleton] at he
  subst he
  refine ⟨(by rintro ⟨_, _, _, h | h⟩ <;> cases h), ?_⟩
  intro q hq
  rw [List.mem_singleton.1 hq]
  exact ⟨rfl, (exampleQ, 9), List.mem_singleton.2 rfl, rfl⟩

/-! ## C35 -/

theorem sum_sq_dev (xs : List ℝ) (m : ℝ) : (xs.map (fun x => (x - m) ^ 2)).sum =
    (xs.map (fun x => x ^ 2)).sum - 2 * m * xs.sum + xs.length * m ^ 2 := by
  induction xs with
  | nil => simp
  | cons x xs ih =>
    rw [List.map_cons, List.sum_cons, ih, List.map_cons, List.sum_cons, List.sum_cons,
      List.length_cons]
    push_cast
    ring

theorem sum_sq_dev_mean {xs : List ℝ} (h : xs ≠ []) :
    (xs.map (fun x => (x - mean xs) ^ 2)).sum =
      (xs.map (fun x => x ^ 2)).sum - xs.sum * xs.sum / xs.length := by
  have hn : (xs.length : ℝ) ≠ 0 := by
    exact_mod_cast (List.length_pos_iff.2 h).ne'
  rw [sum_sq_dev]
  unfold mean
  field_simp
  ring

theorem sum_sq_eq_zero : ∀ {xs : List ℝ}, (∀ x ∈ xs, 0 ≤ x) → (xs.sum = 0 ↔ ∀ x ∈ xs, x = 0)
  | [], _ => by simp
  | x :: xs, h => by
    have hx := h x (List.mem_cons_self ..)
    have hxs := fun y hy => h y (List.mem_cons_of_mem x hy)
    have hs : 0 ≤ xs.sum := List.sum_nonneg hxs
    rw [List.sum_cons, List.forall_mem_cons, ← sum_sq_eq_zero hxs]
    constructor
    · intro h; constructor <;> linarith
    · rintro ⟨h1, h2⟩; linarith

theorem standardError_eq {xs : List ℝ} (h : xs ≠ []) :
    standardError xs = Real.sqrt (xs.map (fun x => (x - mean xs) ^ 2)).sum / xs.length := by
  have hn : (0 : ℝ) < xs.length := by exact_mod_cast List.length_pos_iff.2 h
  have hm : ∀ ys : List ℝ, mean ys = ys.sum / ys.length := fun _ => rfl
  rw [standardError, hm (xs.map _), List.length_map, div_div, Real.sqrt_div' _ (by positivity), Real.sqrt_mul_self hn.le]

/-- For any scores of one or more histories, the number printed is the standard error of their
mean: the quantity under the root is not negative. -/
theorem C35_printed_value {xs : List ℝ} (h : xs ≠ []) :
    Scorable.stdDev xs.sum (xs.map (fun x => x ^ 2)).sum xs.length = .ok (standardError xs) := by
  have hn : (xs.length : ℝ) ≠ 0 := by
    exact_mod_cast (List.length_pos_iff.2 h).ne'
  unfold Scorable.stdDev
  rw [if_neg hn, ← sum_sq_dev_mean h, if_neg, standardError_eq h]
  push Not
  apply List.sum_nonneg
  intro x hx
  obtain ⟨y, _, rfl⟩ := List.mem_map.1 hx
  positivity

/-- It is zero exactly when every history contributed the same score. -/
theorem C35_zero_iff_equal {xs : List ℝ} (h : xs ≠ []) :
    standardError xs = 0 ↔ ∀ x ∈ xs, ∀ y ∈ xs, x = y := by
  have hn : (0 : ℝ) < xs.length := by exact_mod_cast List.length_pos_iff.2 h
  have hnn : ∀ z ∈ xs.map (fun x => (x - mean xs) ^ 2), 0 ≤ z := by
    intro z hz
    obtain ⟨y, _, rfl⟩ := List.mem_map.1 hz
    positivity
  rw [standardError_eq h, div_eq_zero_iff, or_iff_left hn.ne',
    Real.sqrt_eq_zero (List.sum_nonneg hnn), sum_sq_eq_zero hnn]
  constructor
  · intro h0 x hx y hy
    have hx0 := h0 _ (List.mem_map.2 ⟨x, hx, rfl⟩)
    have hy0 := h0 _ (List.mem_map.2 ⟨y, hy, rfl⟩)
    have := pow_eq_zero_iff (two_ne_zero) |>.1 hx0
    have := pow_eq_zero_iff (two_ne_zero) |>.1 hy0
    linarith
  · intro hall z hz
    obtain ⟨y, hy, rfl⟩ := List.mem_map.1 hz
    have hrep : xs = List.replicate xs.length y := by
      rw [List.eq_replicate_iff]
      exact ⟨rfl, fun b hb => hall b hb y hy⟩
    have hm : mean xs = y := by
      unfold mean
      have hsum : xs.sum = xs.length * y := by
        conv_lhs => rw [hrep]
        rw [List.sum_replicate, nsmul_eq_mul]
      rw [hsum]
      field_simp
    rw [hm]
    ring

theorem afterHistories_withTallies {s : EstimatorSet} (hb : s.BinsCreated) :
    ∀ (hs : List (List Particle)) (t : Tallies) (s' : EstimatorSet)
      (c : List Particle → Tallies), (∀ h ∈ hs, Contribution s h (c h)) →
      afterHistories (s.withTallies t) hs = .ok s' →
      s' = s.withTallies (t + (hs.map c).sum)
  | [], t, s', c, _, h => by
    simp only [afterHistories, Except.ok.injEq] at h
    rw [← h]
    simp
  | a :: hs, t, s', c, hc, h => by
    unfold afterHistories at h
    simp only [bind, Except.bind] at h
    rcases h1 : (s.withTallies t).addHistory a with er | s₁
    · rw [h1] at h; cases h
    · rw [h1] at h
      have hcan : ∀ p ∈ a, CanScore s p := by
        intro p hp
        have := addHistory_inv h1 p hp
        rw [canScore_iff] at this ⊢
        intro e he
        exact (canScore_withTallies _ p).1 (this _ (List.mem_map.2 ⟨e, he, rfl⟩))
      have h2 := addHistory_ok hb hcan t (c a) (hc a (List.mem_cons_self ..))
      rw [h1] at h2
      cases h2
      rw [List.map_cons, List.sum_cons, ← add_assoc]
      exact afterHistories_withTallies hb hs _ s' c
        (fun x hx => hc x (List.mem_cons_of_mem _ hx)) h

theorem sum_apply_tallies (cs : List Tallies) (n : String) (j : Option String) (i : ℕ) :
    cs.sum n j i = (cs.map (fun c => c n j i)).sum := by
  induction cs with
  | nil => rfl
  | cons c cs ih =>
    rw [List.sum_cons, List.map_cons, List.sum_cons, ← ih]
    rfl

theorem sum_fst (l : List (ℝ × ℝ)) : l.sum.1 = (l.map Prod.fst).sum := by
  induction l with
  | nil => rfl
  | cons a l ih => rw [List.sum_cons, List.map_cons, List.sum_cons, ← ih]; rfl

theorem sum_snd (l : List (ℝ × ℝ)) : l.sum.2 = (l.map Prod.snd).sum := by
  induction l with
  | nil => rfl
  | cons a l ih => rw [List.sum_cons, List.map_cons, List.sum_cons, ← ih]; rfl

theorem stdDevs_withTally {b : Minimc.Scorable} {t : ℕ → ℝ × ℝ} {w : ℝ} {i : ℕ}
    (hi : i < b.bins.size) :
    ((b.withTally t).stdDevs w)[i]? = some (Scorable.stdDev (t i).1 (t i).2 w) := by
  unfold Scorable.stdDevs Scorable.withTally
  rw [List.getElem?_zipWith]
  simp [hi]

theorem means_withTally {b : Minimc.Scorable} {t : ℕ → ℝ × ℝ} {w : ℝ} {i : ℕ}
    (hi : i < b.bins.size) (hw : w ≠ 0) :
    ((b.withTally t).means w)[i]? = some (.ok ((t i).1 / w)) := by
  unfold Scorable.means Scorable.withTally
  simp [hi, hw]

/-- The estimators of a set that has been given one or more histories print, in every bin, the
mean of the histories' scores and the standard error of that mean, when the weight is the number
of histories. -/
theorem C35_printed {s s' : EstimatorSet} (hs : s.Shaped) (hb : s.BinsCreated)
    (h0 : s = s.withTallies 0) {hists : List (List Particle)} (hne : hists ≠ [])
    (h : afterHistories s hists = .ok s') :
    List.Forall₂ (fun e e' : Estimator => e'.base.name = e.base.name ∧
      (e'.base.means hists.length).length = e.base.bins.size ∧
      (e'.base.stdDevs hists.length).length = e.base.bins.size ∧
      (∀ i < e.base.bins.size,
        (e'.base.means hists.length)[i]? = some (.ok (mean (hists.map (historyScore e.base.bins
          (fun p => if Crossed e.surface p then 1 else 0) · i)))) ∧
        (e'.base.stdDevs hists.length)[i]? = some (.ok (standardError (hists.map (historyScore
          e.base.bins (fun p => if Crossed e.surface p then 1 else 0) · i))))) ∧
      List.Forall₂ (fun q q' : Sensitivity => q'.base.name = q.base.name ∧
        ∀ i < q.base.bins.size,
        (q'.base.means hists.length)[i]? = some (.ok (mean (hists.map (historyScore q.base.bins
          (effectAtCrossing q.surface q.perturbation) · i)))) ∧
        (q'.base.stdDevs hists.length)[i]? = some (.ok (standardError (hists.map (historyScore
          q.base.bins (effectAtCrossing q.surface q.perturbation) · i)))))
        e.sensitivities e'.sensitivities) s.estimators s'.estimators := by
  choose c hc using contribution_exists hs.names hs.sensitivityNames
  rw [h0] at h
  have h' := afterHistories_withTallies hb hists 0 s' c (fun x _ => hc x) h
  rw [zero_add] at h'
  have hlen : (hists.length : ℝ) ≠ 0 := by
    exact_mod_cast (List.length_pos_iff.2 hne).ne'
  have key : ∀ (b : Minimc.Scorable) (f : Particle → ℝ) (n : String) (j : Option String),
      (∀ x i, c x n j i = historyTally b.bins f x i) → ∀ i < b.bins.size,
      ((b.withTally ((hists.map c).sum n j)).means hists.length)[i]? =
        some (.ok (mean (hists.map (historyScore b.bins f · i)))) ∧
      ((b.withTally ((hists.map c).sum n j)).stdDevs hists.length)[i]? =
        some (.ok (standardError (hists.map (historyScore b.bins f · i)))) := by
    intro b f n j hcc i hi
    have e0 : (hists.map c).sum n j i = (hists.map (fun x => historyTally b.bins f x i)).sum := by
      rw [sum_apply_tallies, List.map_map]
      congr 1
      apply List.map_congr_left
      intro x _
      exact hcc x i
    have e1 : ((hists.map c).sum n j i).1 = (hists.map (historyScore b.bins f · i)).sum := by
      rw [e0, sum_fst, List.map_map]; rfl
    have e2 : ((hists.map c).sum n j i).2 =
        ((hists.map (historyScore b.bins f · i)).map (fun x => x ^ 2)).sum := by
      rw [e0, sum_snd, List.map_map, List.map_map]; rfl
    constructor
    · rw [means_withTally hi hlen, e1]
      unfold mean
      rw [List.length_map]
    · rw [stdDevs_withTally hi, e1, e2]
      have := C35_printed_value (xs := hists.map (historyScore b.bins f · i)) (by simpa using hne)
      rw [List.length_map] at this
      rw [this]
  rw [h']
  unfold EstimatorSet.withTallies
  dsimp only
  rw [List.forall₂_map_right_iff, List.forall₂_same]
  intro e he
  refine ⟨rfl, ?_, ?_, ?_, ?_⟩
  · simp [Estimator.withTallies, Scorable.means, Scorable.withTally]
  · simp [Estimator.withTallies, Scorable.stdDevs, Scorable.withTally]
  · exact key e.base _ e.base.name none (fun x i => (hc x).base e he i)
  · unfold Estimator.withTallies
    dsimp only
    rw [List.forall₂_map_right_iff, List.forall₂_same]
    intro q hq
    exact ⟨rfl, key q.base _ e.base.name (some q.base.name)
      (fun x i => (hc x).sensitivities e he q hq i)⟩

theorem getScore_of_means {b : Minimc.Scorable} {w v : ℝ} {i : ℕ}
    (h : (b.means w)[i]? = some (.ok v)) : b.getScore i w = .ok v := by
  unfold Scorable.means at h
  rw [List.getElem?_map, Option.map_eq_some_iff] at h
  obtain ⟨x, h1, h2⟩ := h
  unfold Scorable.getScore vecAt noexcept
  rw [h1]
  simp only [bind, Except.bind]
  rw [h2]

/-- `GetScore` of the estimators of such a set gives that mean for every bin, and ends the program
for a bin that does not exist. -/
theorem C35_get_score {s s' : EstimatorSet} (hs : s.Shaped) (hb : s.BinsCreated)
    (h0 : s = s.withTallies 0) {hists : List (List Particle)} (hne : hists ≠ [])
    (h : afterHistories s hists = .ok s') :
    List.Forall₂ (fun e e' : Estimator =>
      (∀ i < e.base.bins.size, e'.base.getScore i hists.length =
        .ok (mean (hists.map (historyScore e.base.bins
          (fun p => if Crossed e.surface p then 1 else 0) · i)))) ∧
      (∀ i w, e.base.bins.size ≤ i → e'.base.getScore i w = .error .terminate) ∧
      List.Forall₂ (fun q q' : Sensitivity =>
        ∀ i < q.base.bins.size, q'.base.getScore i hists.length =
          .ok (mean (hists.map (historyScore q.base.bins
            (effectAtCrossing q.surface q.perturbation) · i))))
        e.sensitivities e'.sensitivities) s.estimators s'.estimators := by
  refine (C35_printed hs hb h0 hne h).imp fun e e' he => ⟨?_, ?_, ?_⟩
  · exact fun i hi => getScore_of_means (he.2.2.2.1 i hi).1
  · intro i w hi
    unfold Scorable.getScore vecAt noexcept
    have hl := he.2.1
    rw [Scorable.means, List.length_map] at hl
    rw [List.getElem?_eq_none (hl ▸ hi)]
    rfl
  · exact he.2.2.2.2.imp fun q q' hq i hi => getScore_of_means (hq.2 i hi).1

/-- Instance: scores 1 and 3 give the mean 2 and the standard error sqrt(1/2). -/
example : Scorable.stdDev (1 + 3) (1 ^ 2 + 3 ^ 2) 2 = .ok (Real.sqrt (1 / 2)) := by
  have := C35_printed_value (xs := [1, 3]) (by simp)
  have hm : mean [1, 3] = 2 := by norm_num [mean]
  have hs : standardError [1, 3] = Real.sqrt (1 / 2) := by
    unfold standardError
    rw [hm]
    congr 1
    norm_num [mean]
  rw [hs] at this
  convert this using 2 <;> norm_num

example : standardError [1, 3] ≠ 0 := by
  rw [Ne, C35_zero_iff_equal (by simp)]
  intro h
  have := h 1 (by simp) 3 (by simp)
  norm_num at this

/-- Instance for `C35_printed`: a fresh set and two histories. -/
example (plane : SurfaceObj) : ∃ s', ((exampleSet 1 plane).withTallies 0).Shaped ∧
    afterHistories ((exampleSet 1 plane).withTallies 0)
      [[exampleState 2 plane .surfaceCross], [exampleState 9 plane .scatter]] = .ok s' := by
  have hs := shaped_withTallies (exampleSet_shaped 1 plane) 0
  have hb := exampleSet_bins 1 plane
  have hsc := exampleSet_shaped 1 plane
  obtain ⟨c, hc⟩ := contribution_exists hsc.names hsc.sensitivityNames
    [exampleState 2 plane .surfaceCross]
  obtain ⟨c', hc'⟩ := contribution_exists hsc.names hsc.sensitivityNames
    [exampleState 9 plane .scatter]
  have h1 := addHistory_ok hb (by
    intro p hp; rw [List.mem_singleton.1 hp]; exact exampleState_canScore _ _ _ _) 0 c hc
  have h2 := addHistory_ok hb (by
    intro p hp; rw [List.mem_singleton.1 hp]; exact exampleState_canScore _ _ _ _) (0 + c) c' hc'
  refine ⟨(exampleSet 1 plane).withTallies (0 + c + c'), hs, ?_⟩
  unfold afterHistories
  rw [h1]
  change afterHistories _ _ = _
  unfold afterHistories
  rw [h2]
  rfl

/-! ## C36 -/

theorem getD_withTally {b : Minimc.Scorable} {t : ℕ → ℝ × ℝ} {i : ℕ} (hi : i < b.bins.size) :
    (b.withTally t).scores.getD i 0 = (t i).1 ∧ (b.withTally t).squareScores.getD i 0 = (t i).2 := by
  unfold Scorable.withTally
  exact ⟨getD_range_map _ hi, getD_range_map _ hi⟩

theorem binsAdded_withTally {b o : Minimc.Scorable} (t u : ℕ → ℝ × ℝ)
    (h : o.bins.size = b.bins.size) :
    BinsAdded (b.withTally t) (o.withTally u) (b.withTally (t + u)) := by
  refine ⟨rfl, rfl, by simp [Scorable.withTally], by simp [Scorable.withTally], ?_, ?_⟩
  · intro i hi
    have hi' : i < b.bins.size := by simpa [Scorable.withTally] using hi
    rw [(getD_withTally hi').1, (getD_withTally hi').1, (getD_withTally (h ▸ hi')).1]
    rfl
  · intro i hi
    have hi' : i < b.bins.size := by simpa [Scorable.withTally] using hi
    rw [(getD_withTally hi').2, (getD_withTally hi').2, (getD_withTally (h ▸ hi')).2]
    rfl

/-- Adding a set in which every estimator is found by its name adds the scores of the estimators
and sensitivities of the same name, bin by bin. -/
theorem C36_adds_by_name {s o : EstimatorSet} (hs : s.Shaped) (ho : o.Shaped)
    (hc : Compatible s o) (hn : AllNamed s o) :
    ∃ r, s.add o = .ok r ∧ r.totalWeight = s.totalWeight ∧
      List.Forall₂ (fun e r : Estimator => r.surface = e.surface ∧
        (∀ e' ∈ o.estimators, e.base.name = e'.base.name → BinsAdded e.base e'.base r.base ∧
        List.Forall₂ (fun q r : Sensitivity => r.surface = q.surface ∧
          r.perturbation = q.perturbation ∧
          ∀ q' ∈ e'.sensitivities, q.base.name = q'.base.name → BinsAdded q.base q'.base r.base)
          e.sensitivities r.sensitivities)) s.estimators r.estimators := by
  obtain ⟨t, ht⟩ := shaped_eq_withTallies hs
  obtain ⟨u, hu⟩ := shaped_eq_withTallies ho
  have h := setAdd_withTallies hc t u
  rw [← ht, ← hu, if_pos hn] at h
  refine ⟨s.withTallies (t + u), h, rfl, ?_⟩
  rw [hu, ht, withTallies_withTallies]
  unfold EstimatorSet.withTallies
  dsimp only
  rw [List.forall₂_map_left_iff, List.forall₂_map_right_iff, List.forall₂_same]
  intro e he
  refine ⟨rfl, ?_⟩
  intro e' he' hname
  obtain ⟨e₀, he₀, rfl⟩ := List.mem_map.1 he'
  have hname' : e.base.name = e₀.base.name := hname
  constructor
  · have := binsAdded_withTally (t e.base.name none) (u e₀.base.name none)
      (hc.size e he e₀ he₀ hname')
    rw [← hname'] at this
    rw [← hname']
    exact this
  · unfold Estimator.withTallies
    dsimp only
    rw [List.forall₂_map_left_iff, List.forall₂_map_right_iff, List.forall₂_same]
    intro q hq
    refine ⟨rfl, rfl, ?_⟩
    intro q' hq' hqn
    obtain ⟨q₀, hq₀, rfl⟩ := List.mem_map.1 hq'
    have hqn' : q.base.name = q₀.base.name := hqn
    have := binsAdded_withTally (t e.base.name (some q.base.name))
      (u e₀.base.name (some q₀.base.name))
      (hc.sensitivitySize e he e₀ he₀ hname' q hq q₀ hq₀ hqn')
    rw [← hname', ← hqn'] at this
    rw [← hname', ← hqn']
    exact this

/-- Adding raises exactly when the other set has no estimator of some name.  The hypothesis
`Compatible` is what is missing from the full property, see
`C36_missing_sensitivity_violated`. -/
theorem C36_raises_iff_partial {s o : EstimatorSet} (hs : s.Shaped) (ho : o.Shaped)
    (hc : Compatible s o) :
    (s.add o = .error .runtimeError ↔ ∃ e ∈ s.estimators, ∀ e' ∈ o.estimators,
      e.base.name ≠ e'.base.name) ∧
    (s.add o = .error .runtimeError ∨ ∃ r, s.add o = .ok r) := by
  obtain ⟨t, ht⟩ := shaped_eq_withTallies hs
  obtain ⟨u, hu⟩ := shaped_eq_withTallies ho
  have h := setAdd_withTallies hc t u
  rw [← ht, ← hu] at h
  by_cases hn : AllNamed s o
  · rw [if_pos hn] at h
    refine ⟨⟨fun he => ?_, fun ⟨e, he, hall⟩ => ?_⟩, Or.inr ⟨_, h⟩⟩
    · rw [h] at he; cases he
    · obtain ⟨e', he', hne⟩ := hn e he
      exact absurd hne (hall e' he')
  · rw [if_neg hn] at h
    refine ⟨⟨fun _ => ?_, fun _ => h⟩, Or.inl h⟩
    unfold AllNamed at hn
    push Not at hn
    exact hn

/-- The result of merging several sets does not depend on their order. -/
theorem C36_any_order {s : EstimatorSet} (hs : s.Shaped) {os os' : List EstimatorSet}
    (hperm : os.Perm os') (ho : ∀ o ∈ os, o.Shaped ∧ Compatible s o ∧ AllNamed s o) :
    ∃ r, mergeAll s os = .ok r ∧ mergeAll s os' = .ok r := by
  obtain ⟨t, ht⟩ := shaped_eq_withTallies hs
  have hex : ∀ o : EstimatorSet, ∃ u : Tallies, o.Shaped → o = o.withTallies u := by
    intro o
    by_cases h : o.Shaped
    · obtain ⟨u, hu⟩ := shaped_eq_withTallies h
      exact ⟨u, fun _ => hu⟩
    · exact ⟨0, fun h' => absurd h' h⟩
  choose u hu using hex
  have hmap : ∀ l : List EstimatorSet, (∀ o ∈ l, o.Shaped) →
      (l.map (fun o => (o, u o))).map (fun o => o.1.withTallies o.2) = l := by
    intro l hl
    rw [List.map_map]
    conv_rhs => rw [← List.map_id l]
    apply List.map_congr_left
    intro o hol
    exact (hu o (hl o hol)).symm
  have hmerge : ∀ l : List EstimatorSet,
      (∀ o ∈ l, o.Shaped ∧ Compatible s o ∧ AllNamed s o) →
      mergeAll s l = .ok (s.withTallies (t + (l.map u).sum)) := by
    intro l hl
    have h := mergeAll_withTallies (s := s) (l.map (fun o => (o, u o))) t (by
      intro o hol
      obtain ⟨o', ho', rfl⟩ := List.mem_map.1 hol
      exact (hl o' ho').2)
    rw [← ht, hmap l (fun o hol => (hl o hol).1)] at h
    rw [h, List.map_map]
    rfl
  refine ⟨_, hmerge os ho, ?_⟩
  rw [hmerge os' (fun o hol => ho o (hperm.mem_iff.2 hol)), (hperm.map u).sum_eq]

/-- Instance: two sets that differ in their scores. -/
example (plane : SurfaceObj) : (exampleSet 1 plane).Shaped ∧ (exampleSet 7 plane).Shaped ∧
    Compatible (exampleSet 1 plane) (exampleSet 7 plane) ∧
    AllNamed (exampleSet 1 plane) (exampleSet 7 plane) ∧
    ∃ r, (exampleSet 1 plane).add (exampleSet 7 plane) = .ok r ∧
      r.estimators.map (fun e => (e.base.scores, e.base.squareScores)) = [([8], [20])] := by
  have hn : AllNamed (exampleSet 1 plane) (exampleSet 7 plane) := by
    intro e he
    simp only [exampleSet, List.mem_singleton] at he
    subst he
    exact ⟨_, List.mem_singleton.2 rfl, rfl⟩
  have hc : Compatible (exampleSet 1 plane) (exampleSet 7 plane) := by
    refine ⟨?_, ?_, ?_⟩
    · intro e he e' he' _
      simp only [exampleSet, List.mem_singleton] at he he'
      subst he he'
      rfl
    · intro e he e' he' _ q hq
      simp only [exampleSet, List.mem_singleton] at he he'
      subst he he'
      simp only [List.mem_singleton] at hq
      subst hq
      exact ⟨_, List.mem_singleton.2 rfl, rfl⟩
    · intro e he e' he' _ q hq q' hq' _
      simp only [exampleSet, List.mem_singleton] at he he'
      subst he he'
      simp only [List.mem_singleton] at hq hq'
      subst hq hq'
      rfl
  refine ⟨exampleSet_shaped 1 plane, exampleSet_shaped 7 plane, hc, hn, ?_⟩
  refine ⟨_, rfl, ?_⟩
  simp only [List.map_cons, List.map_nil]
  norm_num

/-- The property fails for a missing sensitivity: adding a set in which the estimator has no
sensitivity of the name does not raise but reads past the end of a vector. -/
theorem C36_missing_sensitivity_violated : ∃ s o : EstimatorSet, s.Shaped ∧ o.Shaped ∧
    AllNamed s o ∧ (∃ e ∈ s.estimators, ∃ q ∈ e.sensitivities, ∀ e' ∈ o.estimators,
      ∀ q' ∈ e'.sensitivities, q.base.name ≠ q'.base.name) ∧ s.add o = .error .ub := by
  refine ⟨exampleSet 1 ⟨0, "a", .planeX 1⟩,
    ⟨[⟨⟨"right", oneBin, [0], [0]⟩, ⟨0, "a", .planeX 1⟩, []⟩], 1⟩, exampleSet_shaped _ _,
    ⟨?_, ?_, ?_, ?_⟩, ?_, ?_, rfl⟩
  · intro e he e' he' _
    rw [List.mem_singleton.1 he, List.mem_singleton.1 he']
  · intro e he q hq
    rw [List.mem_singleton.1 he] at hq
    cases hq
  · intro e he
    rw [List.mem_singleton.1 he]
    exact ⟨rfl, rfl⟩
  · intro e he q hq
    rw [List.mem_singleton.1 he] at hq
    cases hq
  · intro e he
    rw [List.mem_singleton.1 he]
    exact ⟨_, List.mem_singleton.2 rfl, rfl⟩
  · refine ⟨_, List.mem_singleton.2 rfl, _, List.mem_singleton.2 rfl, ?_⟩
    intro e' he' q' hq'
    rw [List.mem_singleton.1 he'] at hq'
    cases hq'

/-! ## C37 -/

theorem historyScore_crossings (surface : SurfaceObj) (bins : ParticleBins)
    (states : List Particle) (i : ℕ) :
    historyScore bins (fun p => if Crossed surface p then 1 else 0) states i =
      crossings surface bins states i := by
  unfold historyScore crossings
  induction states with
  | nil => simp
  | cons p ps ih =>
    rw [List.map_cons, List.sum_cons, ih, List.countP_cons]
    dsimp only
    by_cases hi : bins.getIndex p.direction p.energy.toReal = .ok i
    · by_cases hc : Crossed surface p
      · rw [if_pos hi, if_pos hc, if_pos (by simp [hi, hc])]
        push_cast; ring
      · rw [if_pos hi, if_neg hc, if_neg (by simp [hc])]
        simp
    · rw [if_neg hi, if_neg (by simp [hi])]
      simp

/-- What a current estimator gains from a history in a bin is the number of the history's states
that are crossings of its surface with coordinates in that bin. -/
theorem C37_counts_crossings {s s' : EstimatorSet} (hs : s.Shaped) (hb : s.BinsCreated)
    {states : List Particle} (h : s.addHistory states = .ok s') :
    List.Forall₂ (fun e e' : Estimator => e'.base.name = e.base.name ∧
      ∀ i < e.base.bins.size,
        e'.base.scores.getD i 0 =
          e.base.scores.getD i 0 + crossings e.surface e.base.bins states i ∧
        e'.base.squareScores.getD i 0 =
          e.base.squareScores.getD i 0 + (crossings e.surface e.base.bins states i : ℝ) ^ 2)
      s.estimators s'.estimators := by
  have key := (C34_commit hs hb h).2
  have hsh : ∀ e ∈ s.estimators, e.base.Shaped := hs.base
  revert key hsh
  generalize s.estimators = es
  generalize s'.estimators = es'
  intro key hsh
  induction key with
  | nil => exact .nil
  | @cons e e' es es' hee _ ih =>
    refine .cons ⟨hee.2.1.name, ?_⟩ (ih (fun e he => hsh e (List.mem_cons_of_mem _ he)))
    intro i hi
    have hl := hsh e (List.mem_cons_self ..)
    rw [← historyScore_crossings]
    exact ⟨hee.2.1.scores i (by rw [hl.1]; exact hi), hee.2.1.squares i (by rw [hl.2]; exact hi)⟩

end Minimc.Props
