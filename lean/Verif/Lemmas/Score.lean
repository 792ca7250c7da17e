import Verif.Spec.Score
import Verif.Lemmas.Multigroup
import Verif.Props.Bins
import Mathlib.Algebra.BigOperators.Group.List.Basic

/-! # Lemmas on scoring -/

open Classical

namespace Minimc

open Spec

/-- Sum of the pending scores of a bin. -/
noncomputable def Pending.val (l : Pending) (i : ℕ) : ℝ :=
  (l.map (fun e => if e.1 = i then e.2 else 0)).sum

theorem Pending.val_nil (i : ℕ) : Pending.val [] i = 0 := rfl

theorem Pending.val_cons (k : ℕ) (x : ℝ) (l : Pending) (i : ℕ) :
    Pending.val ((k, x) :: l) i = (if k = i then x else 0) + Pending.val l i := rfl

theorem Pending.val_of_not_mem {l : Pending} {i : ℕ} (h : ∀ e ∈ l, e.1 ≠ i) :
    Pending.val l i = 0 := by
  induction l with
  | nil => rfl
  | cons e l ih =>
    obtain ⟨k, x⟩ := e
    have hk : k ≠ i := h (k, x) (List.mem_cons_self ..)
    rw [Pending.val_cons, if_neg hk, ih (fun e he => h e (List.mem_cons_of_mem _ he)), add_zero]

theorem Pending.val_add (k : ℕ) (x : ℝ) (l : Pending) (i : ℕ) :
    Pending.val (Pending.add k x l) i = Pending.val l i + if k = i then x else 0 := by
  induction l with
  | nil => simp [Pending.add, Pending.val]
  | cons e l ih =>
    obtain ⟨k', x'⟩ := e
    unfold Pending.add
    split
    · rw [Pending.val_cons, add_comm]
    · split
      · next h =>
        subst h
        rw [Pending.val_cons, Pending.val_cons]
        split <;> ring
      · rw [Pending.val_cons, ih, Pending.val_cons]; ring

theorem Pending.keys_add {k : ℕ} {x : ℝ} {l : Pending} {e : ℕ × ℝ}
    (h : e ∈ Pending.add k x l) : e.1 = k ∨ ∃ e' ∈ l, e'.1 = e.1 := by
  induction l with
  | nil =>
    left
    simp only [Pending.add, List.mem_singleton] at h
    rw [h]
  | cons a l ih =>
    obtain ⟨k', x'⟩ := a
    unfold Pending.add at h
    split at h
    · rcases List.mem_cons.1 h with rfl | h
      · exact Or.inl rfl
      · exact Or.inr ⟨e, h, rfl⟩
    · split at h
      · rcases List.mem_cons.1 h with rfl | h
        · exact Or.inr ⟨(k', x'), List.mem_cons_self .., rfl⟩
        · exact Or.inr ⟨e, List.mem_cons_of_mem _ h, rfl⟩
      · rcases List.mem_cons.1 h with rfl | h
        · exact Or.inr ⟨(k', x'), List.mem_cons_self .., rfl⟩
        · rcases ih h with h | ⟨e', he', h⟩
          · exact Or.inl h
          · exact Or.inr ⟨e', List.mem_cons_of_mem _ he', h⟩

/-- The pending scores are in the order of their bins. -/
def Pending.Sorted (l : Pending) : Prop := l.Pairwise (fun a b => a.1 < b.1)

theorem Pending.sorted_add {k : ℕ} {x : ℝ} {l : Pending} (h : l.Sorted) :
    (Pending.add k x l).Sorted := by
  unfold Pending.Sorted at *
  induction l with
  | nil => simp [Pending.add]
  | cons a l ih =>
    obtain ⟨k', x'⟩ := a
    rw [List.pairwise_cons] at h
    unfold Pending.add
    split
    · next hlt =>
      rw [List.pairwise_cons]
      refine ⟨?_, List.pairwise_cons.2 h⟩
      intro e he
      rcases List.mem_cons.1 he with rfl | he
      · exact hlt
      · exact lt_trans hlt (h.1 e he)
    · split
      · exact List.pairwise_cons.2 ⟨h.1, h.2⟩
      · next h1 h2 =>
        rw [List.pairwise_cons]
        refine ⟨?_, ih h.2⟩
        intro e he
        rcases Pending.keys_add he with hk | ⟨e', he', hk⟩
        · change k' < e.1
          omega
        · rw [← hk]; exact h.1 e' he'

theorem range_map_set (n i : ℕ) (f : ℕ → ℝ) (a : ℝ) :
    ((List.range n).map f).set i a = (List.range n).map (fun j => if j = i then a else f j) := by
  apply List.ext_getElem?
  intro j
  rw [List.getElem?_set, List.getElem?_map, List.getElem?_map, List.length_map, List.length_range]
  by_cases hj : j < n
  · rw [List.getElem?_range hj]
    by_cases h : i = j
    · subst h; simp [hj]
    · rw [if_neg h]; simp [Ne.symm h]
  · have : (List.range n)[j]? = none := by
      rw [List.getElem?_eq_none]; simpa using Nat.le_of_not_lt hj
    rw [this]
    by_cases h : i = j
    · subst h; simp [hj]
    · rw [if_neg h]; rfl

theorem withTally_eq_iff {s : Scorable} {t u : ℕ → ℝ × ℝ} (h : ∀ i < s.bins.size, t i = u i) :
    s.withTally t = s.withTally u := by
  unfold Scorable.withTally
  have h1 : (List.range s.bins.size).map (fun i => (t i).1) =
      (List.range s.bins.size).map (fun i => (u i).1) := by
    apply List.map_congr_left
    intro i hi
    rw [h i (List.mem_range.1 hi)]
  have h2 : (List.range s.bins.size).map (fun i => (t i).2) =
      (List.range s.bins.size).map (fun i => (u i).2) := by
    apply List.map_congr_left
    intro i hi
    rw [h i (List.mem_range.1 hi)]
  rw [h1, h2]

/-- Committing pending scores. -/
theorem Pending.commit_withTally (s : Scorable) : ∀ (l : Pending) (t : ℕ → ℝ × ℝ), l.Sorted →
    (∀ e ∈ l, e.1 < s.bins.size) →
    l.commit (s.withTally t) =
      .ok (s.withTally (fun i => t i + (Pending.val l i, Pending.val l i ^ 2)))
  | [], t, _, _ => by
    rw [Pending.commit]
    congr 1
    apply withTally_eq_iff
    intro i _
    simp [Pending.val_nil]
  | (k, x) :: l, t, hs, hk => by
    have hs' := List.pairwise_cons.1 hs
    have hkn : k < s.bins.size := hk (k, x) (List.mem_cons_self ..)
    have h1 : (s.withTally t).scores[k]? = some (t k).1 := by
      simp [Scorable.withTally, hkn]
    have h2 : (s.withTally t).squareScores[k]? = some (t k).2 := by
      simp [Scorable.withTally, hkn]
    rw [Pending.commit, h1, h2]
    have key : ({ s.withTally t with
        scores := (s.withTally t).scores.set k ((t k).1 + x)
        squareScores := (s.withTally t).squareScores.set k ((t k).2 + x * x) } : Scorable) =
        s.withTally (fun i => if i = k then ((t k).1 + x, (t k).2 + x * x) else t i) := by
      unfold Scorable.withTally
      dsimp only
      rw [range_map_set, range_map_set]
      congr 1 <;>
      · apply List.map_congr_left
        intro i _
        by_cases h : i = k
        · rw [if_pos h, if_pos h]
        · rw [if_neg h, if_neg h]
    dsimp only
    rw [key, Pending.commit_withTally s l _ hs'.2 (fun e he => hk e (List.mem_cons_of_mem _ he))]
    congr 1
    apply withTally_eq_iff
    intro i _
    rw [Pending.val_cons]
    by_cases h : i = k
    · subst h
      have h0 : Pending.val l i = 0 :=
        Pending.val_of_not_mem (fun e he => Nat.ne_of_gt (hs'.1 e he))
      rw [if_pos rfl, if_pos rfl, h0, add_zero]
      ext <;> (simp; try ring)
    · rw [if_neg h, if_neg (Ne.symm h), zero_add]

/-- A list of pending scores is what scoring the given states leaves behind. -/
structure Pending.Holds (l : Pending) (bins : ParticleBins) (f : Particle → ℝ)
    (states : List Particle) : Prop where
  sorted : l.Sorted
  val : ∀ i, Pending.val l i = historyScore bins f states i
  lt : CreatedParticleBins bins → ∀ e ∈ l, e.1 < bins.size

theorem historyScore_append (bins : ParticleBins) (f : Particle → ℝ) (a : List Particle)
    (p : Particle) (i : ℕ) : historyScore bins f (a ++ [p]) i = historyScore bins f a i +
      if bins.getIndex p.direction p.energy.toReal = .ok i then f p else 0 := by
  simp [historyScore]

theorem Pending.holds_nil (bins : ParticleBins) (f : Particle → ℝ) :
    Pending.Holds [] bins f [] :=
  ⟨List.Pairwise.nil, fun _ => rfl, fun _ _ h => by cases h⟩

theorem currentScore_eq (surface : SurfaceObj) (p : Particle) :
    currentScore surface p = if Crossed surface p then 1 else 0 := by
  unfold currentScore Crossed
  rcases p.currentSurface with _ | s
  · rw [if_neg]
    rintro ⟨s, h, _⟩
    cases h
  · dsimp only
    by_cases h : s.id = surface.id ∧ (p.event = .surfaceCross ∨ p.event = .leak)
    · rw [if_pos h, if_pos ⟨s, rfl, h⟩]
    · rw [if_neg h, if_neg]
      rintro ⟨s', hs, h'⟩
      cases hs
      exact h h'

theorem getIndirectEffect_eq (p : Particle) (q : Perturbation) :
    (∃ x ∈ p.indirectEffects, x.1.id = q.id) ∧ p.getIndirectEffect q =
      .ok (((p.indirectEffects.find? (fun e => e.1.id == q.id)).map Prod.snd).getD 0) ∨
    (¬ ∃ x ∈ p.indirectEffects, x.1.id = q.id) ∧
      p.getIndirectEffect q = .error .terminate := by
  unfold Particle.getIndirectEffect
  rcases h : p.indirectEffects.find? (fun e => e.1.id == q.id) with _ | e
  · right
    rw [h]
    refine ⟨?_, rfl⟩
    rintro ⟨x, hx, hq⟩
    have := List.find?_eq_none.1 h x hx
    simp [hq] at this
  · left
    rw [h]
    refine ⟨⟨e, List.mem_of_find?_eq_some h, ?_⟩, rfl⟩
    have := List.find?_some h
    simpa using this

theorem sensitivity_getScore (q : Sensitivity) (p : Particle) :
    (∃ x ∈ p.indirectEffects, x.1.id = q.perturbation.id) ∧
      q.getScore p = .ok (effectAtCrossing q.surface q.perturbation p) ∨
    (¬ ∃ x ∈ p.indirectEffects, x.1.id = q.perturbation.id) ∧
      q.getScore p = .error .terminate := by
  rcases getIndirectEffect_eq p q.perturbation with ⟨h, he⟩ | ⟨h, he⟩
  · refine Or.inl ⟨h, ?_⟩
    unfold Sensitivity.getScore effectAtCrossing
    rw [he, currentScore_eq]
    by_cases hc : Crossed q.surface p
    · rw [if_pos hc, if_pos hc]
      simp only [bind, Except.bind, mul_one]
    · rw [if_neg hc, if_neg hc]
      simp only [bind, Except.bind, mul_zero]
  · refine Or.inr ⟨h, ?_⟩
    unfold Sensitivity.getScore
    rw [he]
    rfl

theorem Pending.score_ok {bins : ParticleBins} {f : Particle → ℝ} {states : List Particle}
    {l : Pending} (h : l.Holds bins f states) {p : Particle}
    (hi : f p ≠ 0 → ∃ i, bins.getIndex p.direction p.energy.toReal = .ok i) :
    ∃ l', Pending.score bins (.ok (f p)) p l = .ok l' ∧ l'.Holds bins f (states ++ [p]) := by
  unfold Pending.score
  simp only [bind, Except.bind]
  by_cases h0 : f p = 0
  · rw [if_pos h0]
    refine ⟨l, rfl, h.sorted, ?_, h.lt⟩
    intro i
    rw [historyScore_append, h0, h.val]
    simp
  · rw [if_neg h0]
    obtain ⟨i, hi⟩ := hi h0
    rw [hi]
    refine ⟨Pending.add i (f p) l, rfl, Pending.sorted_add h.sorted, ?_, ?_⟩
    · intro j
      rw [Pending.val_add, historyScore_append, h.val, hi]
      congr 1
      by_cases hj : i = j
      · rw [if_pos hj, if_pos (by rw [hj])]
      · rw [if_neg hj, if_neg]
        intro hh
        cases hh
        exact hj rfl
    · intro hb e he
      rcases Pending.keys_add he with hk | ⟨e', he', hk⟩
      · rw [hk]; exact Props.C12_flat_index_lt_size hb _ _ _ hi
      · rw [← hk]; exact h.lt hb e' he'

theorem Pending.score_index {bins : ParticleBins} {v : ℝ} {l l' : Pending} {p : Particle}
    (h : Pending.score bins (.ok v) p l = .ok l') (hv : v ≠ 0) :
    ∃ i, bins.getIndex p.direction p.energy.toReal = .ok i := by
  unfold Pending.score at h
  simp only [bind, Except.bind] at h
  rw [if_neg hv] at h
  rcases hi : bins.getIndex p.direction p.energy.toReal with e | i
  · rw [hi] at h
    cases e <;> cases h
  · exact ⟨i, rfl⟩

/-- The pending scores of an estimator and its sensitivities after the given states. -/
structure EstimatorProxy.Holds (e : Estimator) (x : EstimatorProxy) (states : List Particle) :
    Prop where
  base : x.pending.Holds e.base.bins (fun p => if Crossed e.surface p then 1 else 0) states
  sensitivities : List.Forall₂ (fun (q : Sensitivity) (l : Pending) =>
    l.Holds q.base.bins (effectAtCrossing q.surface q.perturbation) states)
    e.sensitivities x.sensitivities

theorem EstimatorProxy.holds_create (e : Estimator) :
    EstimatorProxy.Holds e (EstimatorProxy.create e) [] := by
  refine ⟨Pending.holds_nil _ _, ?_⟩
  unfold EstimatorProxy.create
  dsimp only
  generalize e.sensitivities = ss
  induction ss with
  | nil => exact .nil
  | cons q ss ih => exact .cons (Pending.holds_nil _ _) ih

theorem scoreSensitivities_ok {p : Particle} {states : List Particle} {ss : List Sensitivity}
    {xs : List Pending}
    (h : List.Forall₂ (fun (q : Sensitivity) (l : Pending) =>
      l.Holds q.base.bins (effectAtCrossing q.surface q.perturbation) states) ss xs)
    (he : ∀ q ∈ ss, ∃ x ∈ p.indirectEffects, x.1.id = q.perturbation.id)
    (hi : ∀ q ∈ ss, effectAtCrossing q.surface q.perturbation p ≠ 0 →
      ∃ i, q.base.bins.getIndex p.direction p.energy.toReal = .ok i) :
    ∃ xs', EstimatorProxy.scoreSensitivities p ss xs = .ok xs' ∧
      List.Forall₂ (fun (q : Sensitivity) (l : Pending) =>
        l.Holds q.base.bins (effectAtCrossing q.surface q.perturbation) (states ++ [p])) ss xs' := by
  induction h with
  | nil => exact ⟨[], rfl, .nil⟩
  | @cons q x ss xs hqx hrest ih =>
    obtain ⟨xs', h1, h2⟩ := ih (fun q hq => he q (List.mem_cons_of_mem _ hq))
      (fun q hq => hi q (List.mem_cons_of_mem _ hq))
    have hg : q.getScore p = .ok (effectAtCrossing q.surface q.perturbation p) := by
      rcases sensitivity_getScore q p with ⟨_, h⟩ | ⟨h, _⟩
      · exact h
      · exact absurd (he q (List.mem_cons_self ..)) h
    obtain ⟨x', h3, h4⟩ := Pending.score_ok hqx (p := p) (hi q (List.mem_cons_self ..))
    refine ⟨x' :: xs', ?_, .cons h4 h2⟩
    unfold EstimatorProxy.scoreSensitivities
    rw [hg, h3, h1]
    rfl

theorem scoreSensitivities_inv {p : Particle} : ∀ {ss : List Sensitivity} {xs xs' : List Pending},
    ss.length = xs.length → EstimatorProxy.scoreSensitivities p ss xs = .ok xs' →
    ∀ q ∈ ss, (∃ x ∈ p.indirectEffects, x.1.id = q.perturbation.id) ∧
      (effectAtCrossing q.surface q.perturbation p ≠ 0 →
        ∃ i, q.base.bins.getIndex p.direction p.energy.toReal = .ok i)
  | [], _, _, _, _ => by intro q hq; cases hq
  | q :: ss, [], _, hl, _ => by simp at hl
  | q :: ss, x :: xs, xs', hl, h => by
    unfold EstimatorProxy.scoreSensitivities at h
    simp only [bind, Except.bind] at h
    rcases h1 : Pending.score q.base.bins (q.getScore p) p x with e | x'
    · rw [h1] at h; cases h
    · rw [h1] at h
      dsimp only at h
      rcases h2 : EstimatorProxy.scoreSensitivities p ss xs with e | xs₂
      · rw [h2] at h; cases h
      · intro r hr
        rcases List.mem_cons.1 hr with rfl | hr
        · rcases sensitivity_getScore r p with ⟨ha, hb⟩ | ⟨_, hb⟩
          · rw [hb] at h1
            exact ⟨ha, Pending.score_index h1⟩
          · rw [hb] at h1; cases h1
        · exact scoreSensitivities_inv (by simpa using hl) h2 r hr

/-- The states that an estimator can score. -/
def Estimator.CanScore (e : Estimator) (p : Particle) : Prop :=
  (Crossed e.surface p → ∃ i, e.base.bins.getIndex p.direction p.energy.toReal = .ok i) ∧
  ∀ q ∈ e.sensitivities, (∃ x ∈ p.indirectEffects, x.1.id = q.perturbation.id) ∧
    (effectAtCrossing q.surface q.perturbation p ≠ 0 →
      ∃ i, q.base.bins.getIndex p.direction p.energy.toReal = .ok i)

theorem EstimatorProxy.score_ok {e : Estimator} {x : EstimatorProxy} {states : List Particle}
    (h : EstimatorProxy.Holds e x states) {p : Particle} (hp : e.CanScore p) :
    ∃ x', EstimatorProxy.score e x p = .ok x' ∧ EstimatorProxy.Holds e x' (states ++ [p]) := by
  obtain ⟨l, h1, h2⟩ := Pending.score_ok h.base (p := p)
    (fun h0 => hp.1 (by by_contra hc; rw [if_neg hc] at h0; exact h0 rfl))
  obtain ⟨ls, h3, h4⟩ := scoreSensitivities_ok h.sensitivities (fun q hq => (hp.2 q hq).1)
    (fun q hq => (hp.2 q hq).2)
  refine ⟨⟨l, ls⟩, ?_, h2, h4⟩
  unfold EstimatorProxy.score
  rw [currentScore_eq, h1, h3]
  rfl

theorem EstimatorProxy.score_inv {e : Estimator} {x x' : EstimatorProxy} {p : Particle}
    (hl : e.sensitivities.length = x.sensitivities.length)
    (h : EstimatorProxy.score e x p = .ok x') : e.CanScore p := by
  unfold EstimatorProxy.score at h
  simp only [bind, Except.bind] at h
  rw [currentScore_eq] at h
  rcases h1 : Pending.score e.base.bins (.ok (if Crossed e.surface p then 1 else 0)) p x.pending
    with er | l
  · rw [h1] at h; cases h
  · rw [h1] at h
    dsimp only at h
    rcases h2 : EstimatorProxy.scoreSensitivities p e.sensitivities x.sensitivities with er | ls
    · rw [h2] at h; cases h
    · refine ⟨fun hc => ?_, scoreSensitivities_inv hl h2⟩
      rw [if_pos hc] at h1
      exact Pending.score_index h1 one_ne_zero

theorem scoreAll_ok {p : Particle} {states : List Particle} {es : List Estimator}
    {xs : List EstimatorProxy}
    (h : List.Forall₂ (fun e x => EstimatorProxy.Holds e x states) es xs)
    (hp : ∀ e ∈ es, e.CanScore p) :
    ∃ xs', EstimatorSet.scoreAll p es xs = .ok xs' ∧
      List.Forall₂ (fun e x => EstimatorProxy.Holds e x (states ++ [p])) es xs' := by
  induction h with
  | nil => exact ⟨[], rfl, .nil⟩
  | @cons e x es xs hex hrest ih =>
    obtain ⟨xs', h1, h2⟩ := ih (fun q hq => hp q (List.mem_cons_of_mem _ hq))
    obtain ⟨x', h3, h4⟩ := EstimatorProxy.score_ok hex (hp e (List.mem_cons_self ..))
    refine ⟨x' :: xs', ?_, .cons h4 h2⟩
    unfold EstimatorSet.scoreAll
    rw [h3, h1]
    rfl

theorem scoreAll_inv {p : Particle} {states : List Particle} {es : List Estimator}
    {xs xs' : List EstimatorProxy}
    (h : List.Forall₂ (fun e x => EstimatorProxy.Holds e x states) es xs)
    (hs : EstimatorSet.scoreAll p es xs = .ok xs') : ∀ e ∈ es, e.CanScore p := by
  induction h generalizing xs' with
  | nil => intro e he; cases he
  | @cons e x es xs hex hrest ih =>
    unfold EstimatorSet.scoreAll at hs
    simp only [bind, Except.bind] at hs
    rcases h1 : EstimatorProxy.score e x p with er | x'
    · rw [h1] at hs; cases hs
    · rw [h1] at hs
      dsimp only at hs
      rcases h2 : EstimatorSet.scoreAll p es xs with er | xs₂
      · rw [h2] at hs; cases hs
      · intro r hr
        rcases List.mem_cons.1 hr with rfl | hr
        · exact EstimatorProxy.score_inv hex.sensitivities.length_eq h1
        · exact ih h2 r hr

theorem scoreHistory_ok {es : List Estimator} : ∀ {ps states : List Particle}
    {xs : List EstimatorProxy},
    List.Forall₂ (fun e x => EstimatorProxy.Holds e x states) es xs →
    (∀ p ∈ ps, ∀ e ∈ es, e.CanScore p) →
    ∃ xs', EstimatorSet.scoreHistory es ps xs = .ok xs' ∧
      List.Forall₂ (fun e x => EstimatorProxy.Holds e x (states ++ ps)) es xs'
  | [], states, xs, h, _ => ⟨xs, rfl, by rw [List.append_nil]; exact h⟩
  | p :: ps, states, xs, h, hp => by
    obtain ⟨xs₁, h1, h2⟩ := scoreAll_ok h (hp p (List.mem_cons_self ..))
    obtain ⟨xs₂, h3, h4⟩ := scoreHistory_ok h2 (fun q hq => hp q (List.mem_cons_of_mem _ hq))
    refine ⟨xs₂, ?_, by simpa using h4⟩
    unfold EstimatorSet.scoreHistory
    rw [h1]
    exact h3

theorem scoreHistory_inv {es : List Estimator} : ∀ {ps states : List Particle}
    {xs xs' : List EstimatorProxy},
    List.Forall₂ (fun e x => EstimatorProxy.Holds e x states) es xs →
    EstimatorSet.scoreHistory es ps xs = .ok xs' →
    ∀ p ∈ ps, ∀ e ∈ es, e.CanScore p
  | [], _, _, _, _, _ => by intro p hp; cases hp
  | p :: ps, states, xs, xs', h, hs => by
    unfold EstimatorSet.scoreHistory at hs
    simp only [bind, Except.bind] at hs
    rcases h1 : EstimatorSet.scoreAll p es xs with er | xs₁
    · rw [h1] at hs; cases hs
    · rw [h1] at hs
      have hc := scoreAll_inv h h1
      obtain ⟨xs₁', h2, h3⟩ := scoreAll_ok h hc
      rw [h1] at h2
      cases h2
      intro r hr
      rcases List.mem_cons.1 hr with rfl | hr
      · exact hc
      · exact scoreHistory_inv h3 hs r hr

theorem holds_getProxy (s : EstimatorSet) :
    List.Forall₂ (fun e x => EstimatorProxy.Holds e x []) s.estimators s.getProxy := by
  unfold EstimatorSet.getProxy
  generalize s.estimators = es
  induction es with
  | nil => exact .nil
  | cons e es ih => exact .cons (EstimatorProxy.holds_create e) ih

theorem commitSensitivities_ok {states : List Particle} {ss : List Sensitivity} {xs : List Pending}
    (h : List.Forall₂ (fun (q : Sensitivity) (l : Pending) =>
      l.Holds q.base.bins (effectAtCrossing q.surface q.perturbation) states) ss xs)
    (hb : ∀ q ∈ ss, CreatedParticleBins q.base.bins) (t c : Option String → ℕ → ℝ × ℝ)
    (hc : ∀ q ∈ ss, ∀ i, c (some q.base.name) i =
      historyTally q.base.bins (effectAtCrossing q.surface q.perturbation) states i) :
    EstimatorProxy.commitSensitivities
      (ss.map (fun q => { q with base := q.base.withTally (t (some q.base.name)) })) xs =
      .ok (ss.map (fun q => { q with base := q.base.withTally ((t + c) (some q.base.name)) })) := by
  induction h with
  | nil => rfl
  | @cons q x ss xs hqx hrest ih =>
    have hq := List.mem_cons_self (a := q) (l := ss)
    rw [List.map_cons, EstimatorProxy.commitSensitivities,
      ih (fun q hq => hb q (List.mem_cons_of_mem _ hq)) (fun q hq => hc q (List.mem_cons_of_mem _ hq))]
    dsimp only
    rw [Pending.commit_withTally _ _ _ hqx.sorted (hqx.lt (hb q hq))]
    simp only [bind, Except.bind, List.map_cons]
    congr 3
    apply withTally_eq_iff
    intro i _
    rw [hqx.val]
    change _ = t (some q.base.name) i + c (some q.base.name) i
    rw [hc q hq i]
    rfl

theorem EstimatorProxy.commit_ok {e : Estimator} {x : EstimatorProxy} {states : List Particle}
    (h : EstimatorProxy.Holds e x states) (hb : CreatedParticleBins e.base.bins)
    (hbs : ∀ q ∈ e.sensitivities, CreatedParticleBins q.base.bins)
    (t c : Option String → ℕ → ℝ × ℝ)
    (hc : ∀ i, c none i =
      historyTally e.base.bins (fun p => if Crossed e.surface p then 1 else 0) states i)
    (hcs : ∀ q ∈ e.sensitivities, ∀ i, c (some q.base.name) i =
      historyTally q.base.bins (effectAtCrossing q.surface q.perturbation) states i) :
    EstimatorProxy.commit (e.withTallies t) x = .ok (e.withTallies (t + c)) := by
  unfold EstimatorProxy.commit Estimator.withTallies
  dsimp only
  rw [commitSensitivities_ok h.sensitivities hbs t c hcs,
    Pending.commit_withTally _ _ _ h.base.sorted (h.base.lt hb)]
  simp only [bind, Except.bind]
  congr 2
  apply withTally_eq_iff
  intro i _
  rw [h.base.val]
  change _ = t none i + c none i
  rw [hc i]
  rfl

theorem commitAll_ok {states : List Particle} {es : List Estimator} {xs : List EstimatorProxy}
    (h : List.Forall₂ (fun e x => EstimatorProxy.Holds e x states) es xs)
    (hb : ∀ e ∈ es, CreatedParticleBins e.base.bins)
    (hbs : ∀ e ∈ es, ∀ q ∈ e.sensitivities, CreatedParticleBins q.base.bins) (t c : Tallies)
    (hc : ∀ e ∈ es, ∀ i, c e.base.name none i =
      historyTally e.base.bins (fun p => if Crossed e.surface p then 1 else 0) states i)
    (hcs : ∀ e ∈ es, ∀ q ∈ e.sensitivities, ∀ i, c e.base.name (some q.base.name) i =
      historyTally q.base.bins (effectAtCrossing q.surface q.perturbation) states i) :
    EstimatorSet.commitAll (es.map (fun e => e.withTallies (t e.base.name))) xs =
      .ok (es.map (fun e => e.withTallies ((t + c) e.base.name))) := by
  induction h with
  | nil => rfl
  | @cons e x es xs hex hrest ih =>
    have he := List.mem_cons_self (a := e) (l := es)
    rw [List.map_cons, EstimatorSet.commitAll,
      ih (fun q hq => hb q (List.mem_cons_of_mem _ hq))
        (fun q hq => hbs q (List.mem_cons_of_mem _ hq))
        (fun q hq => hc q (List.mem_cons_of_mem _ hq))
        (fun q hq => hcs q (List.mem_cons_of_mem _ hq)),
      EstimatorProxy.commit_ok hex (hb e he) (hbs e he) _ (c e.base.name) (hc e he) (hcs e he)]
    rfl

theorem holds_withTallies {e : Estimator} {x : EstimatorProxy} {states : List Particle}
    (t : Option String → ℕ → ℝ × ℝ) (h : EstimatorProxy.Holds (e.withTallies t) x states) :
    EstimatorProxy.Holds e x states := by
  refine ⟨h.base, ?_⟩
  have := h.sensitivities
  unfold Estimator.withTallies at this
  dsimp only at this
  rw [List.forall₂_map_left_iff] at this
  exact this

theorem canScore_withTallies {e : Estimator} (t : Option String → ℕ → ℝ × ℝ) (p : Particle) :
    (e.withTallies t).CanScore p ↔ e.CanScore p := by
  unfold Estimator.CanScore Estimator.withTallies
  simp only [List.mem_map, forall_exists_index, and_imp, forall_apply_eq_imp_iff₂]
  rfl

theorem canScore_iff {s : EstimatorSet} {p : Particle} :
    CanScore s p ↔ ∀ e ∈ s.estimators, e.CanScore p :=
  ⟨fun h e he => ⟨h.base e he, fun q hq => ⟨h.effects e he q hq, h.sensitivities e he q hq⟩⟩,
   fun h => ⟨fun e he => (h e he).1, fun e he q hq => ((h e he).2 q hq).1,
    fun e he q hq => ((h e he).2 q hq).2⟩⟩

theorem addHistory_ok {s : EstimatorSet} (hb : s.BinsCreated) {states : List Particle}
    (hs : ∀ p ∈ states, CanScore s p) (t c : Tallies) (hc : Contribution s states c) :
    (s.withTallies t).addHistory states = .ok (s.withTallies (t + c)) := by
  have hcan : ∀ p ∈ states, ∀ e ∈ (s.withTallies t).estimators, e.CanScore p := by
    intro p hp e he
    obtain ⟨e', he', rfl⟩ := List.mem_map.1 he
    exact (canScore_withTallies _ p).2 (canScore_iff.1 (hs p hp) e' he')
  obtain ⟨xs, h1, h2⟩ := scoreHistory_ok (holds_getProxy (s.withTallies t)) hcan
  unfold EstimatorSet.addHistory
  rw [h1]
  have h3 : List.Forall₂ (fun e x => EstimatorProxy.Holds e x states) s.estimators xs := by
    rw [List.nil_append] at h2
    unfold EstimatorSet.withTallies at h2
    dsimp only at h2
    rw [List.forall₂_map_left_iff] at h2
    exact h2.imp (fun e x h => holds_withTallies _ h)
  have h4 := commitAll_ok h3 hb.base hb.sensitivities t c hc.base hc.sensitivities
  simp only [bind, Except.bind]
  have h5 : EstimatorSet.commitAll (s.withTallies t).estimators xs = _ := h4
  rw [h5]
  rfl

theorem addHistory_inv {s s' : EstimatorSet} {states : List Particle}
    (h : s.addHistory states = .ok s') : ∀ p ∈ states, CanScore s p := by
  unfold EstimatorSet.addHistory at h
  simp only [bind, Except.bind] at h
  rcases h1 : EstimatorSet.scoreHistory s.estimators states s.getProxy with er | xs
  · rw [h1] at h; cases h
  · intro p hp
    exact canScore_iff.2 (scoreHistory_inv (holds_getProxy s) h1 p hp)

/-- The scores of a shaped set as tallies. -/
theorem shaped_eq_withTallies {s : EstimatorSet} (h : s.Shaped) :
    ∃ t : Tallies, s = s.withTallies t := by
  have hsc : ∀ b : Scorable, b.Shaped →
      b = b.withTally (fun i => (b.scores.getD i 0, b.squareScores.getD i 0)) := by
    intro b hb
    unfold Scorable.withTally
    have h1 : (List.range b.bins.size).map (fun i => b.scores.getD i 0) = b.scores := by
      apply List.ext_getElem
      · simp [hb.1]
      · intro i h1 h2; simp [h2]
    have h2 : (List.range b.bins.size).map (fun i => b.squareScores.getD i 0) =
        b.squareScores := by
      apply List.ext_getElem
      · simp [hb.2]
      · intro i h1 h2; simp [h2]
    dsimp only
    rw [h1, h2]
  let val : Scorable → ℕ → ℝ × ℝ := fun b i => (b.scores.getD i 0, b.squareScores.getD i 0)
  let t : Tallies := fun n j i =>
    if hn : ∃ e ∈ s.estimators, e.base.name = n then
      match j with
      | none => val hn.choose.base i
      | some m =>
        if hm : ∃ q ∈ hn.choose.sensitivities, q.base.name = m then val hm.choose.base i
        else 0
    else 0
  refine ⟨t, ?_⟩
  have ht : ∀ e ∈ s.estimators, (t e.base.name none = val e.base) ∧
      ∀ q ∈ e.sensitivities, t e.base.name (some q.base.name) = val q.base := by
    intro e he
    have hn : ∃ e' ∈ s.estimators, e'.base.name = e.base.name := ⟨e, he, rfl⟩
    have hch : hn.choose = e := h.names _ hn.choose_spec.1 _ he hn.choose_spec.2
    constructor
    · funext i
      change (if hn : ∃ e' ∈ s.estimators, e'.base.name = e.base.name then _ else _) = _
      rw [dif_pos hn]
      change val hn.choose.base i = _
      rw [hch]
    · intro q hq
      funext i
      change (if hn : ∃ e' ∈ s.estimators, e'.base.name = e.base.name then _ else _) = _
      rw [dif_pos hn]
      have hm : ∃ q' ∈ hn.choose.sensitivities, q'.base.name = q.base.name := by
        rw [hch]; exact ⟨q, hq, rfl⟩
      change (if hm : ∃ q' ∈ hn.choose.sensitivities, q'.base.name = q.base.name then
        val hm.choose.base i else 0) = _
      rw [dif_pos hm]
      have hqe : hm.choose = q := by
        refine h.sensitivityNames e he _ ?_ _ hq hm.choose_spec.2
        have hmem := hm.choose_spec.1
        exact (congrArg (fun e : Estimator => hm.choose ∈ e.sensitivities) hch).mp hmem
      rw [hqe]
  unfold EstimatorSet.withTallies
  have : s.estimators.map (fun e => e.withTallies (t e.base.name)) = s.estimators := by
    conv_rhs => rw [← List.map_id s.estimators]
    apply List.map_congr_left
    intro e he
    unfold Estimator.withTallies
    rw [(ht e he).1]
    have h2 : e.sensitivities.map (fun q =>
        ({ q with base := q.base.withTally (t e.base.name (some q.base.name)) } : Sensitivity)) =
        e.sensitivities := by
      conv_rhs => rw [← List.map_id e.sensitivities]
      apply List.map_congr_left
      intro q hq
      rw [(ht e he).2 q hq, ← hsc q.base (h.sensitivities e he q hq)]
      rfl
    rw [h2, ← hsc e.base (h.base e he)]
    rfl
  rw [this]

theorem contribution_exists {s : EstimatorSet}
    (hn : ∀ e ∈ s.estimators, ∀ e' ∈ s.estimators, e.base.name = e'.base.name → e = e')
    (hq : ∀ e ∈ s.estimators, ∀ q ∈ e.sensitivities, ∀ q' ∈ e.sensitivities,
      q.base.name = q'.base.name → q = q') (states : List Particle) :
    ∃ c, Contribution s states c := by
  let c : Tallies := fun n j i =>
    if hn : ∃ e ∈ s.estimators, e.base.name = n then
      match j with
      | none => historyTally hn.choose.base.bins
          (fun p => if Crossed hn.choose.surface p then 1 else 0) states i
      | some m =>
        if hm : ∃ q ∈ hn.choose.sensitivities, q.base.name = m then
          historyTally hm.choose.base.bins
            (effectAtCrossing hm.choose.surface hm.choose.perturbation) states i
        else 0
    else 0
  refine ⟨c, ?_, ?_⟩
  · intro e he i
    have hne : ∃ e' ∈ s.estimators, e'.base.name = e.base.name := ⟨e, he, rfl⟩
    have hch : hne.choose = e := hn _ hne.choose_spec.1 _ he hne.choose_spec.2
    change (if hn : ∃ e' ∈ s.estimators, e'.base.name = e.base.name then _ else _) = _
    rw [dif_pos hne]
    change historyTally hne.choose.base.bins _ states i = _
    rw [hch]
  · intro e he q hqe i
    have hne : ∃ e' ∈ s.estimators, e'.base.name = e.base.name := ⟨e, he, rfl⟩
    have hch : hne.choose = e := hn _ hne.choose_spec.1 _ he hne.choose_spec.2
    change (if hn : ∃ e' ∈ s.estimators, e'.base.name = e.base.name then _ else _) = _
    rw [dif_pos hne]
    have hm : ∃ q' ∈ hne.choose.sensitivities, q'.base.name = q.base.name := by
      rw [hch]; exact ⟨q, hqe, rfl⟩
    change (if hm : ∃ q' ∈ hne.choose.sensitivities, q'.base.name = q.base.name then
      historyTally hm.choose.base.bins
        (effectAtCrossing hm.choose.surface hm.choose.perturbation) states i else 0) = _
    rw [dif_pos hm]
    have hqq : hm.choose = q := by
      refine hq e he _ ?_ _ hqe hm.choose_spec.2
      have hmem := hm.choose_spec.1
      exact (congrArg (fun e : Estimator => hm.choose ∈ e.sensitivities) hch).mp hmem
    rw [hqq]

end Minimc
