import Verif.Lemmas.Score
import Verif.Model.Driver

/-! # Lemmas on merging estimator sets -/

open Classical

namespace Minimc

open Spec

theorem addAll_range (n : ℕ) (f g : ℕ → ℝ) :
    Scorable.addAll ((List.range n).map f) ((List.range n).map g) =
      .ok ((List.range n).map (fun i => f i + g i)) := by
  generalize List.range n = l
  induction l with
  | nil => rfl
  | cons a l ih => rw [List.map_cons, List.map_cons, Scorable.addAll, ih]; rfl

theorem add_withTally {s o : Scorable} (t u : ℕ → ℝ × ℝ) (h : o.bins.size = s.bins.size) :
    (s.withTally t).add (o.withTally u) = .ok (s.withTally (t + u)) := by
  unfold Scorable.add Scorable.withTally
  dsimp only
  rw [h, addAll_range, addAll_range]
  rfl

theorem addSensitivities_withTally {ss os : List Sensitivity} (t u : Option String → ℕ → ℝ × ℝ)
    (h1 : ∀ q ∈ ss, ∃ q' ∈ os, q.base.name = q'.base.name)
    (h2 : ∀ q ∈ ss, ∀ q' ∈ os, q.base.name = q'.base.name →
      q'.base.bins.size = q.base.bins.size) :
    Estimator.addSensitivities
      (os.map (fun q => { q with base := q.base.withTally (u (some q.base.name)) }))
      (ss.map (fun q => { q with base := q.base.withTally (t (some q.base.name)) })) =
      .ok (ss.map (fun q => { q with base := q.base.withTally ((t + u) (some q.base.name)) })) := by
  induction ss with
  | nil => rfl
  | cons q ss ih =>
    have hq := List.mem_cons_self (a := q) (l := ss)
    rw [List.map_cons, Estimator.addSensitivities,
      ih (fun q hq => h1 q (List.mem_cons_of_mem _ hq)) (fun q hq => h2 q (List.mem_cons_of_mem _ hq))]
    rw [List.find?_map]
    rcases hf : os.find? ((fun o : Sensitivity => (q.base.withTally (t (some q.base.name))).name ==
      o.base.name) ∘ fun q : Sensitivity =>
        { q with base := q.base.withTally (u (some q.base.name)) }) with _ | q'
    · exfalso
      obtain ⟨q', hq', hn⟩ := h1 q hq
      have := List.find?_eq_none.1 hf q' hq'
      apply this
      exact beq_iff_eq.2 hn
    · have hm := List.mem_of_find?_eq_some hf
      have hb := List.find?_some hf
      have hn : q.base.name = q'.base.name := beq_iff_eq.1 hb
      simp only [Option.map_some, bind, Except.bind]
      rw [add_withTally _ _ (h2 q hq q' hm hn), ← hn]
      rfl

theorem estimatorAdd_withTallies {e o : Estimator} (t u : Option String → ℕ → ℝ × ℝ)
    (h0 : o.base.bins.size = e.base.bins.size)
    (h1 : ∀ q ∈ e.sensitivities, ∃ q' ∈ o.sensitivities, q.base.name = q'.base.name)
    (h2 : ∀ q ∈ e.sensitivities, ∀ q' ∈ o.sensitivities, q.base.name = q'.base.name →
      q'.base.bins.size = q.base.bins.size) :
    (e.withTallies t).add (o.withTallies u) = .ok (e.withTallies (t + u)) := by
  unfold Estimator.add Estimator.withTallies
  dsimp only
  rw [add_withTally _ _ h0, addSensitivities_withTally t u h1 h2]
  rfl

theorem addEstimators_withTallies {es os : List Estimator} (t u : Tallies)
    (h0 : ∀ e ∈ es, ∀ e' ∈ os, e.base.name = e'.base.name →
      e'.base.bins.size = e.base.bins.size)
    (h1 : ∀ e ∈ es, ∀ e' ∈ os, e.base.name = e'.base.name →
      ∀ q ∈ e.sensitivities, ∃ q' ∈ e'.sensitivities, q.base.name = q'.base.name)
    (h2 : ∀ e ∈ es, ∀ e' ∈ os, e.base.name = e'.base.name →
      ∀ q ∈ e.sensitivities, ∀ q' ∈ e'.sensitivities, q.base.name = q'.base.name →
        q'.base.bins.size = q.base.bins.size) :
    EstimatorSet.addEstimators (os.map (fun e => e.withTallies (u e.base.name)))
      (es.map (fun e => e.withTallies (t e.base.name))) =
      if ∀ e ∈ es, ∃ e' ∈ os, e.base.name = e'.base.name then
        .ok (es.map (fun e => e.withTallies ((t + u) e.base.name)))
      else .error .runtimeError := by
  induction es with
  | nil => rw [if_pos (fun e he => by cases he)]; rfl
  | cons e es ih =>
    have he := List.mem_cons_self (a := e) (l := es)
    have ih' := ih (fun q hq => h0 q (List.mem_cons_of_mem _ hq))
      (fun q hq => h1 q (List.mem_cons_of_mem _ hq)) (fun q hq => h2 q (List.mem_cons_of_mem _ hq))
    rw [List.map_cons, EstimatorSet.addEstimators, ih', List.find?_map]
    rcases hf : os.find? ((fun o : Estimator =>
      (e.withTallies (t e.base.name)).base.name == o.base.name) ∘ fun e : Estimator =>
        e.withTallies (u e.base.name)) with _ | o
    · have hall : ¬ ∀ e' ∈ e :: es, ∃ o ∈ os, e'.base.name = o.base.name := by
        intro hall
        obtain ⟨o, ho, hn⟩ := hall e he
        exact List.find?_eq_none.1 hf o ho (beq_iff_eq.2 hn)
      rw [if_neg hall]
      rfl
    · have hm := List.mem_of_find?_eq_some hf
      have hb := List.find?_some hf
      have hn : e.base.name = o.base.name := beq_iff_eq.1 hb
      simp only [Option.map_some, bind, Except.bind]
      rw [estimatorAdd_withTallies _ _ (h0 e he o hm hn) (h1 e he o hm hn) (h2 e he o hm hn), ← hn]
      dsimp only
      by_cases hall : ∀ e' ∈ es, ∃ o' ∈ os, e'.base.name = o'.base.name
      · rw [if_pos hall, if_pos]
        · rfl
        intro e' he'
        rcases List.mem_cons.1 he' with rfl | he'
        · exact ⟨o, hm, hn⟩
        · exact hall e' he'
      · rw [if_neg hall, if_neg]
        intro h
        exact hall (fun e' he' => h e' (List.mem_cons_of_mem _ he'))

theorem setAdd_withTallies {s o : EstimatorSet} (h : Compatible s o) (t u : Tallies) :
    (s.withTallies t).add (o.withTallies u) =
      if AllNamed s o then .ok (s.withTallies (t + u)) else .error .runtimeError := by
  unfold EstimatorSet.add EstimatorSet.withTallies
  dsimp only
  rw [addEstimators_withTallies t u h.size h.sensitivities h.sensitivitySize]
  by_cases ha : AllNamed s o
  · rw [if_pos ha]
    unfold AllNamed at ha
    rw [if_pos ha]
    rfl
  · rw [if_neg ha]
    unfold AllNamed at ha
    rw [if_neg ha]
    rfl

theorem mergeAll_withTallies {s : EstimatorSet} : ∀ (os : List (EstimatorSet × Tallies))
    (t : Tallies), (∀ o ∈ os, Compatible s o.1 ∧ AllNamed s o.1) →
    mergeAll (s.withTallies t) (os.map (fun o => o.1.withTallies o.2)) =
      .ok (s.withTallies (t + (os.map Prod.snd).sum))
  | [], t, _ => by simp [mergeAll]
  | (o, u) :: os, t, h => by
    have ho := h (o, u) (List.mem_cons_self ..)
    rw [List.map_cons, mergeAll, setAdd_withTallies ho.1, if_pos ho.2]
    simp only [bind, Except.bind]
    rw [mergeAll_withTallies os (t + u) (fun o ho => h o (List.mem_cons_of_mem _ ho)),
      List.map_cons, List.sum_cons, add_assoc]

theorem shaped_withTallies {s : EstimatorSet} (h : s.Shaped) (t : Tallies) :
    (s.withTallies t).Shaped := by
  refine ⟨?_, ?_, ?_, ?_⟩
  · intro e he e' he' hn
    obtain ⟨a, ha, rfl⟩ := List.mem_map.1 he
    obtain ⟨b, hb, rfl⟩ := List.mem_map.1 he'
    have : a = b := h.names a ha b hb hn
    rw [this]
  · intro e he q hq q' hq' hn
    obtain ⟨a, ha, rfl⟩ := List.mem_map.1 he
    obtain ⟨b, hb, rfl⟩ := List.mem_map.1 hq
    obtain ⟨c, hc, rfl⟩ := List.mem_map.1 hq'
    have : b = c := h.sensitivityNames a ha b hb c hc hn
    rw [this]
  · intro e he
    obtain ⟨a, ha, rfl⟩ := List.mem_map.1 he
    constructor <;> simp [Estimator.withTallies, Scorable.withTally]
  · intro e he q hq
    obtain ⟨a, ha, rfl⟩ := List.mem_map.1 he
    obtain ⟨b, hb, rfl⟩ := List.mem_map.1 hq
    constructor <;> simp [Scorable.withTally]

theorem compatible_withTallies {s o : EstimatorSet} (t u : Tallies) :
    Compatible (s.withTallies t) (o.withTallies u) ↔ Compatible s o := by
  constructor
  · intro h
    have hm : ∀ {e}, e ∈ s.estimators → e.withTallies (t e.base.name) ∈
        (s.withTallies t).estimators := fun he => List.mem_map.2 ⟨_, he, rfl⟩
    have hm' : ∀ {e}, e ∈ o.estimators → e.withTallies (u e.base.name) ∈
        (o.withTallies u).estimators := fun he => List.mem_map.2 ⟨_, he, rfl⟩
    refine ⟨fun e he e' he' hn => h.size _ (hm he) (e'.withTallies (u e'.base.name)) (hm' he') hn, ?_, ?_⟩
    · intro e he e' he' hn q hq
      obtain ⟨q', hq', hn'⟩ := h.sensitivities _ (hm he) _ (hm' he') hn _
        (List.mem_map.2 ⟨q, hq, rfl⟩)
      obtain ⟨r, hr, rfl⟩ := List.mem_map.1 hq'
      exact ⟨r, hr, hn'⟩
    · intro e he e' he' hn q hq q' hq' hn'
      exact h.sensitivitySize _ (hm he) (e'.withTallies (u e'.base.name)) (hm' he') hn _
        (List.mem_map.2 ⟨q, hq, rfl⟩)
        { q' with base := q'.base.withTally (u e'.base.name (some q'.base.name)) }
        (List.mem_map.2 ⟨q', hq', rfl⟩) hn'
  · intro h
    refine ⟨?_, ?_, ?_⟩
    · intro e he e' he' hn
      obtain ⟨a, ha, rfl⟩ := List.mem_map.1 he
      obtain ⟨b, hb, rfl⟩ := List.mem_map.1 he'
      exact h.size a ha b hb hn
    · intro e he e' he' hn q hq
      obtain ⟨a, ha, rfl⟩ := List.mem_map.1 he
      obtain ⟨b, hb, rfl⟩ := List.mem_map.1 he'
      obtain ⟨c, hc, rfl⟩ := List.mem_map.1 hq
      obtain ⟨r, hr, hn'⟩ := h.sensitivities a ha b hb hn c hc
      exact ⟨_, List.mem_map.2 ⟨r, hr, rfl⟩, hn'⟩
    · intro e he e' he' hn q hq q' hq' hn'
      obtain ⟨a, ha, rfl⟩ := List.mem_map.1 he
      obtain ⟨b, hb, rfl⟩ := List.mem_map.1 he'
      obtain ⟨c, hc, rfl⟩ := List.mem_map.1 hq
      obtain ⟨d, hd, rfl⟩ := List.mem_map.1 hq'
      exact h.sensitivitySize a ha b hb hn c hc d hd hn'

theorem allNamed_withTallies {s o : EstimatorSet} (t u : Tallies) :
    AllNamed (s.withTallies t) (o.withTallies u) ↔ AllNamed s o := by
  unfold AllNamed EstimatorSet.withTallies
  simp only [List.mem_map, forall_exists_index, and_imp, forall_apply_eq_imp_iff₂,
    exists_exists_and_eq_and]
  rfl

theorem withTallies_withTallies (s : EstimatorSet) (t u : Tallies) :
    (s.withTallies t).withTallies u = s.withTallies u := by
  have he : ∀ e : Estimator, (e.withTallies (t e.base.name)).withTallies (u e.base.name) =
      e.withTallies (u e.base.name) := by
    intro e
    have hs : (e.withTallies (t e.base.name)).sensitivities.map (fun q =>
        ({ q with base := q.base.withTally (u e.base.name (some q.base.name)) } : Sensitivity)) =
        e.sensitivities.map (fun q =>
        ({ q with base := q.base.withTally (u e.base.name (some q.base.name)) } : Sensitivity)) := by
      unfold Estimator.withTallies
      rw [List.map_map]
      rfl
    unfold Estimator.withTallies at hs ⊢
    dsimp only at hs ⊢
    rw [hs]
    rfl
  unfold EstimatorSet.withTallies
  dsimp only
  rw [List.map_map]
  have : ((fun e : Estimator => e.withTallies (u e.base.name)) ∘
      fun e : Estimator => e.withTallies (t e.base.name)) =
      fun e : Estimator => e.withTallies (u e.base.name) := funext he
  rw [this]

theorem compatible_refl {s : EstimatorSet} (h : s.Shaped) : Compatible s s := by
  refine ⟨?_, ?_, ?_⟩
  · intro e he e' he' hn
    rw [h.names e he e' he' hn]
  · intro e he e' he' hn q hq
    rw [← h.names e he e' he' hn]
    exact ⟨q, hq, rfl⟩
  · intro e he e' he' hn q hq q' hq' hn'
    rw [← h.names e he e' he' hn] at hq'
    rw [h.sensitivityNames e he q hq q' hq' hn']

theorem allNamed_refl (s : EstimatorSet) : AllNamed s s := fun e he => ⟨e, he, rfl⟩

end Minimc
