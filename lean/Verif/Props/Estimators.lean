import Verif.Spec.Estimators
import Verif.Lemmas.PtrMap
import Verif.Props.Driver
import Verif.Props.Sensitivity
import Verif.Props.Transport
import Verif.Props.Solve

/-! # Property C57: estimators and perturbations built from a document -/

namespace Minimc.Props

open Classical Spec

theorem fresh_empty (name : String) (bins : ParticleBins) :
    Empty name bins (Scorable.fresh name bins) where
  name := rfl
  bins := rfl
  length := List.length_replicate
  squareLength := List.length_replicate
  scores := fun _ hx => List.eq_of_mem_replicate hx
  squares := fun _ hx => List.eq_of_mem_replicate hx

theorem empty_unique {name : String} {bins : ParticleBins} {b : Scorable} (h : Empty name bins b) :
    b = Scorable.fresh name bins := by
  obtain ⟨n, bs, xs, ys⟩ := b
  obtain ⟨h1, h2, h3, h4, h5, h6⟩ := h
  simp only at h1 h2 h3 h4 h5 h6
  subst h1 h2
  unfold Scorable.fresh
  rw [← h3]
  congr 1
  · exact List.eq_replicate_iff.2 ⟨rfl, h5⟩
  · rw [h3]
    exact List.eq_replicate_iff.2 ⟨h4, h6⟩

theorem findPerturbation_ok {qs : List Perturbation} {name : String} {q : Perturbation} :
    findPerturbationByName qs name = .ok q ↔ FirstNamed Perturbation.name qs name q := by
  rw [← find_firstNamed]
  unfold findPerturbationByName
  split
  · next hf => simp [hf]
  · next hf => simp [hf]

theorem findPerturbation_error {qs : List Perturbation} {name : String} :
    (¬ ∃ q ∈ qs, q.name = name) → findPerturbationByName qs name = .error .runtimeError := by
  intro h
  unfold findPerturbationByName
  split
  · next q' hf =>
    exact absurd ⟨q', List.mem_of_find?_eq_some hf, by simpa using List.find?_some hf⟩ h
  · rfl

theorem findSurface_ok {w : World} {name : String} {s : SurfaceObj} :
    w.findSurfaceByName name = .ok s ↔ FirstNamed SurfaceObj.name w.surfaces name s := by
  rw [← find_firstNamed]
  unfold World.findSurfaceByName
  split
  · next hf => simp [hf]
  · next hf => simp [hf]

theorem findSurface_error {w : World} {name : String} (h : ¬ ∃ s ∈ w.surfaces, s.name = name) :
    w.findSurfaceByName name = .error .runtimeError := by
  unfold World.findSurfaceByName
  split
  · next q' hf =>
    exact absurd ⟨q', List.mem_of_find?_eq_some hf, by simpa using List.find?_some hf⟩ h
  · rfl

theorem createSensitivities_ok {base : Scorable} {qs : List Perturbation} :
    ∀ {names : List String}, (∀ name ∈ names, ∃ q ∈ qs, q.name = name) →
      ∃ r, createSensitivities base qs names = .ok r ∧ List.Forall₂ (fun name e =>
        FirstNamed Perturbation.name qs name e.2 ∧ e.1 = base.ofPerturbation e.2) names r
  | [], _ => ⟨[], rfl, .nil⟩
  | name :: names, h => by
    obtain ⟨q, hq⟩ := (firstNamed_exists Perturbation.name qs name).2 (h name (by simp))
    obtain ⟨r, hr, hf⟩ := createSensitivities_ok (base := base) (names := names)
      (fun n hn => h n (by simp [hn]))
    refine ⟨(base.ofPerturbation q, q) :: r, ?_, .cons ⟨hq, rfl⟩ hf⟩
    unfold createSensitivities
    rw [findPerturbation_ok.2 hq, hr]
    rfl

theorem createSensitivities_error {base : Scorable} {qs : List Perturbation} :
    ∀ {names : List String}, (¬ ∀ name ∈ names, ∃ q ∈ qs, q.name = name) →
      createSensitivities base qs names = .error .runtimeError
  | [], h => absurd (by simp) h
  | name :: names, h => by
    unfold createSensitivities
    by_cases hn : ∃ q ∈ qs, q.name = name
    · obtain ⟨q, hq⟩ := (firstNamed_exists Perturbation.name qs name).2 hn
      have := createSensitivities_error (base := base) (names := names) (qs := qs) (fun h' => h (by
        intro n hmem
        rcases List.mem_cons.1 hmem with rfl | hmem
        · exact hn
        · exact h' n hmem))
      rw [findPerturbation_ok.2 hq, this]
      rfl
    · rw [findPerturbation_error hn]
      rfl

/-- One estimator: what its constructor gives. -/
theorem createEstimator_ok {w : World} {qs : List Perturbation} {node : EstimatorNode}
    (h : NodeDefined w qs node) : ∃ e, createEstimator w qs node = .ok e ∧
      EstimatorOf w qs node e := by
  obtain ⟨bins, hb⟩ := h.bins
  obtain ⟨s, hs⟩ := (firstNamed_exists SurfaceObj.name w.surfaces node.surface).2 h.surface
  obtain ⟨r, hr, hf⟩ := createSensitivities_ok (base := Scorable.fresh node.name bins)
    h.sensitivities
  refine ⟨⟨Scorable.fresh node.name bins, s, r.map (fun e => ⟨e.1, s, e.2⟩)⟩, ?_, ?_⟩
  · unfold createEstimator createEstimatorBase
    rw [hb, if_pos h.isCurrent]
    simp only [bind, Except.bind]
    rw [hr]
    simp only [noexcept_ok]
    rw [findSurface_ok.2 hs]
  · refine ⟨hb, fresh_empty _ _, hs, ?_⟩
    rw [List.forall₂_map_right_iff]
    refine hf.imp ?_
    rintro name ⟨b, q⟩ ⟨h1, h2⟩
    simp only at h1 h2
    subst h2
    exact ⟨h1, rfl, fresh_empty _ _⟩

/-- **C57** An estimator set is built from nodes of which everything referred to is defined: one
estimator per node, in the same order, each as its node describes it and with zero scores. -/
theorem C57_set_as_described {w : World} {qs : List Perturbation} {nodes : List EstimatorNode}
    (h : ∀ n ∈ nodes, NodeDefined w qs n) (weight : ℝ) :
    ∃ s, createEstimatorSet w qs nodes weight = .ok s ∧ s.totalWeight = weight ∧
      List.Forall₂ (EstimatorOf w qs) nodes s.estimators := by
  have : ∃ es, nodes.mapM (createEstimator w qs) = .ok es ∧
      List.Forall₂ (EstimatorOf w qs) nodes es := by
    induction nodes with
    | nil => exact ⟨[], rfl, .nil⟩
    | cons n nodes ih =>
      obtain ⟨e, he, hof⟩ := createEstimator_ok (h n (by simp))
      obtain ⟨es, hes, hofs⟩ := ih (fun n hn => h n (by simp [hn]))
      refine ⟨e :: es, ?_, .cons hof hofs⟩
      rw [List.mapM_cons, he, hes]
      rfl
  obtain ⟨es, hes, hof⟩ := this
  refine ⟨⟨es, weight⟩, ?_, rfl, hof⟩
  unfold createEstimatorSet
  rw [hes]
  rfl

/-- **C57** Which failure an undefined reference leads to, for the first node that has one: a
missing surface is reported by an exception; a missing perturbation, or bins that are rejected by
an exception, terminate the program. -/
theorem C57_undefined {w : World} {qs : List Perturbation} {l r : List EstimatorNode}
    {node : EstimatorNode} (hl : ∀ n ∈ l, NodeDefined w qs n) (hc : node.isCurrent = true)
    (weight : ℝ) :
    (∀ b, node.bins = .ok b → SensitivitiesDefined qs node →
      (¬ ∃ s ∈ w.surfaces, s.name = node.surface) →
      createEstimatorSet w qs (l ++ node :: r) weight = .error .runtimeError) ∧
    (∀ b, node.bins = .ok b → ¬ SensitivitiesDefined qs node →
      createEstimatorSet w qs (l ++ node :: r) weight = .error .terminate) ∧
    (node.bins = .error .runtimeError →
      createEstimatorSet w qs (l ++ node :: r) weight = .error .terminate) := by
  have key : ∀ e, createEstimator w qs node = .error e →
      createEstimatorSet w qs (l ++ node :: r) weight = .error e := by
    intro e he
    have : (l ++ node :: r).mapM (createEstimator w qs) = .error e := by
      induction l with
      | nil =>
        rw [List.nil_append, List.mapM_cons, he]
        rfl
      | cons n l ih =>
        obtain ⟨e', he', _⟩ := createEstimator_ok (hl n (by simp))
        rw [List.cons_append, List.mapM_cons, he', ih (fun n hn => hl n (by simp [hn]))]
        rfl
    unfold createEstimatorSet
    rw [this]
    rfl
  refine ⟨?_, ?_, ?_⟩
  · intro b hb hs hn
    apply key
    obtain ⟨r, hr, _⟩ := createSensitivities_ok (base := Scorable.fresh node.name b) hs
    unfold createEstimator createEstimatorBase
    rw [hb, if_pos hc]
    simp only [bind, Except.bind]
    rw [hr]
    simp only [noexcept_ok]
    rw [findSurface_error hn]
  · intro b hb hs
    apply key
    unfold createEstimator createEstimatorBase
    rw [hb, if_pos hc]
    simp only [bind, Except.bind]
    rw [createSensitivities_error hs]
    rfl
  · intro hb
    apply key
    unfold createEstimator createEstimatorBase
    rw [hb, if_pos hc]
    rfl

/-- **C57** An estimator set can be built exactly when everything the nodes refer to is defined. -/
theorem C57_built_iff {w : World} {qs : List Perturbation} {nodes : List EstimatorNode}
    (weight : ℝ) :
    (∃ s, createEstimatorSet w qs nodes weight = .ok s) ↔ ∀ n ∈ nodes, NodeDefined w qs n := by
  constructor
  · rintro ⟨s, h⟩
    unfold createEstimatorSet at h
    rw [res_bind_ok] at h
    obtain ⟨es, h, -⟩ := h
    have hone : ∀ n e, createEstimator w qs n = .ok e → NodeDefined w qs n := by
      intro n e h
      unfold createEstimator at h
      split at h
      · next hc =>
        simp only [res_bind_ok] at h
        obtain ⟨⟨base, ss⟩, h1, s, h2, _⟩ := h
        unfold createEstimatorBase at h1
        rw [noexcept_eq_ok] at h1
        simp only [res_bind_ok] at h1
        obtain ⟨b, hb, ss', hss, _⟩ := h1
        refine ⟨hc, ⟨b, hb⟩,
          (firstNamed_exists SurfaceObj.name w.surfaces n.surface).1 ⟨s, findSurface_ok.1 h2⟩, ?_⟩
        by_contra hd
        rw [createSensitivities_error hd] at hss
        cases hss
      · cases h
    induction nodes generalizing es with
    | nil => simp
    | cons n nodes ih =>
      rw [List.mapM_cons] at h
      simp only [res_bind_ok] at h
      obtain ⟨e, he, es', hes, _⟩ := h
      intro m hm
      rcases List.mem_cons.1 hm with rfl | hm
      · exact hone _ _ he
      · exact ih es' hes m hm
  · intro h
    obtain ⟨s, hs, _⟩ := C57_set_as_described h weight
    exact ⟨s, hs⟩

/-- **C57** An estimator is looked up by its name: the first one of that name is returned, and an
exception is thrown when there is none. -/
theorem C57_lookup (s : EstimatorSet) (name : String) :
    (∀ e, s.findEstimatorByName name = .ok e ↔
      FirstNamed (fun e : Estimator => e.base.name) s.estimators name e) ∧
    (s.findEstimatorByName name = .error .runtimeError ↔ ∀ e ∈ s.estimators, e.base.name ≠ name) := by
  unfold EstimatorSet.findEstimatorByName
  constructor
  · intro e
    rw [← find_firstNamed]
    split
    · next hf => simp [hf]
    · next hf => simp [hf]
  · split
    · next e hf =>
      refine ⟨fun h => (by cases h), fun h => absurd (by simpa using List.find?_some hf) (h e (List.mem_of_find?_eq_some hf))⟩
    · next hf =>
      refine ⟨fun _ e he hn => ?_, fun _ => rfl⟩
      have := List.find?_eq_none.1 hf e he
      simp [hn] at this

/-- **C57** The perturbations are built in the order of their nodes, at the given addresses, each for
the first nuclide of the given name; the program is terminated when a nuclide is missing from the
world. -/
theorem C57_perturbations {w : World} {ids : List ℕ} {nodes : List PerturbationNode}
    (hl : ids.length = nodes.length) :
    ((∀ n ∈ nodes, ∃ x ∈ w.nuclides, x.name = n.nuclide) →
      ∃ qs, createPerturbations w ids nodes = .ok qs ∧ qs.map Perturbation.id = ids ∧
        List.Forall₂ (PerturbationOf w) nodes qs) ∧
    ((¬ ∀ n ∈ nodes, ∃ x ∈ w.nuclides, x.name = n.nuclide) →
      createPerturbations w ids nodes = .error .terminate) := by
  have hok : ∀ id n x, FirstNamed Nuclide.name w.nuclides n.nuclide x →
      createPerturbation w id n = .ok ⟨id, n.name, x.id⟩ := by
    intro id n x hx
    rw [← find_firstNamed] at hx
    unfold createPerturbation World.findNuclideByName
    split
    · next y hy =>
      have : y = x := by
        have : some y = some x := by rw [← hy, ← hx]
        exact Option.some.inj this
      subst this
      rfl
    · next hy => simp [hy] at hx
  have hno : ∀ id n, (¬ ∃ x ∈ w.nuclides, x.name = n.nuclide) →
      createPerturbation w id n = .error .terminate := by
    intro id n hx
    unfold createPerturbation World.findNuclideByName
    split
    · next y hy =>
      exact absurd ⟨y, List.mem_of_find?_eq_some hy, by simpa using List.find?_some hy⟩ hx
    · rfl
  induction nodes generalizing ids with
  | nil =>
    cases ids with
    | nil => exact ⟨fun _ => ⟨[], rfl, rfl, .nil⟩, fun h => absurd (by simp) h⟩
    | cons => simp at hl
  | cons n nodes ih =>
    cases ids with
    | nil => simp at hl
    | cons id ids =>
      obtain ⟨ih1, ih2⟩ := ih (ids := ids) (by simpa using hl)
      constructor
      · intro h
        obtain ⟨x, hx⟩ := (firstNamed_exists Nuclide.name w.nuclides n.nuclide).2 (h n (by simp))
        obtain ⟨qs, h1, h2, h3⟩ := ih1 (fun m hm => h m (by simp [hm]))
        refine ⟨⟨id, n.name, x.id⟩ :: qs, ?_, by simp [h2], .cons ⟨rfl, x, hx, rfl⟩ h3⟩
        unfold createPerturbations
        rw [hok id n x hx, h1]
        rfl
      · intro h
        unfold createPerturbations
        by_cases hn : ∃ x ∈ w.nuclides, x.name = n.nuclide
        · obtain ⟨x, hx⟩ := (firstNamed_exists Nuclide.name w.nuclides n.nuclide).2 hn
          rw [hok id n x hx, ih2 (fun h' => h (by
            intro m hm
            rcases List.mem_cons.1 hm with rfl | hm
            · exact hn
            · exact h' m hm))]
          rfl
        · rw [hno id n hn]
          rfl

/-- Along a life the perturbations with an effect stay the same. -/
theorem life_effects {method : Method} {fuel : ℕ} {w : World} {p : Particle} {states : List Particle}
    (h : Life (fun q q' => transportStep method fuel w q = .ok q') p states) :
    ∀ q ∈ states, q.indirectEffects.map Prod.fst = p.indirectEffects.map Prod.fst := by
  induction h with
  | ended => simp
  | @step p p' rest _ hstep _ ih =>
    obtain ⟨t, g, _, hf⟩ := C50_accumulates hstep
    have : p'.indirectEffects.map Prod.fst = p.indirectEffects.map Prod.fst := by
      have hf' := hf.imp (S := fun a b : Perturbation × ℝ => b.1 = a.1) (by
        rintro a b ⟨v, _, rfl⟩
        rfl)
      revert hf'
      generalize p.indirectEffects = a
      generalize p'.indirectEffects = b
      intro hf'
      induction hf' with
      | nil => rfl
      | cons h1 _ ih => simp only [List.map_cons, ih, h1]
    intro q hq
    rcases List.mem_cons.1 hq with rfl | hq
    · exact this
    · rw [ih q hq, this]

/-- Every particle of a history was transported, beginning with effects of zero. -/
theorem processBank_mem {run : Particle → Res (Particle × List Particle)}
    {qs : List Perturbation} {n : ℕ} {bank : Bank} {log : List (Particle × List Particle)}
    (h : processBank run qs n bank = .ok log) :
    ∀ e ∈ log, ∃ p last, e.1 = Particle.setPerturbations p qs ∧ run e.1 = .ok (last, e.2) := by
  induction n generalizing bank log with
  | zero =>
    rcases bank.eq_nil_or_concat' with rfl | ⟨b, p, rfl⟩
    · rw [processBank_nil] at h
      cases h
      simp
    · rw [processBank_zero] at h
      cases h
  | succ n ih =>
    rcases bank.eq_nil_or_concat' with rfl | ⟨b, p, rfl⟩
    · rw [processBank_nil] at h
      cases h
      simp
    · rw [processBank_concat] at h
      simp only [res_bind_ok] at h
      obtain ⟨⟨last, scored⟩, hrun, rest, hrest, h⟩ := h
      simp only [Except.ok.injEq] at h
      rw [← h]
      intro e he
      rcases List.mem_cons.1 he with rfl | he
      · exact ⟨p, last, rfl, hrun⟩
      · exact ih hrest e he

/-- **C57** Every state that is scored in a history has an accumulated effect for every
perturbation, so that no sensitivity of a set built with these perturbations terminates the program
when it is scored. -/
theorem C57_effects_present {P : Problem} {fuel e : ℕ} {states : List Particle}
    (h : P.history fuel e = .ok states) :
    ∀ p ∈ states, (∀ q ∈ P.perturbations, ∃ x, p.getIndirectEffect q = .ok x) ∧
      ∀ nodes, List.Forall₂ (EstimatorOf P.world P.perturbations) nodes P.init.estimators →
        ∀ s ∈ P.init.estimators, ∀ q ∈ s.sensitivities, ∃ x, q.getScore p = .ok x := by
  have heff : ∀ p ∈ states, ∀ q ∈ P.perturbations, ∃ x, p.getIndirectEffect q = .ok x := by
    unfold Problem.history at h
    simp only [res_bind_ok] at h
    obtain ⟨born, _, log, hlog, h⟩ := h
    simp only [Except.ok.injEq] at h
    subst h
    intro p hp q hq
    obtain ⟨⟨start, scored⟩, hmem, hp⟩ := List.mem_flatMap.1 hp
    simp only at hp
    obtain ⟨p₀, last, rfl, hrun⟩ := processBank_mem hlog _ hmem
    unfold transport at hrun
    rw [noexcept_eq_ok] at hrun
    simp only [res_bind_ok] at hrun
    obtain ⟨p₁, h1, h2⟩ := hrun
    obtain ⟨c, _, rfl⟩ := locate_ok.1 h1
    have hkeys := life_effects (transportLoop_life h2).1 p hp
    have hid : q.id ∈ p.indirectEffects.map (fun e => e.1.id) := by
      have h3 : q.id ∈ (getIndirectEffects P.perturbations).map (fun e => e.1.id) :=
        (effects_ids [] q.id).2 (Or.inl (List.mem_map.2 ⟨q, hq, rfl⟩))
      have h4 : ∀ l : List (Perturbation × ℝ),
          l.map (fun e => e.1.id) = (l.map Prod.fst).map Perturbation.id := by
        intro l
        rw [List.map_map]
        rfl
      rw [h4] at h3 ⊢
      rw [hkeys]
      exact h3
    unfold Particle.getIndirectEffect
    split
    · next x _ => exact ⟨_, rfl⟩
    · next hf =>
      obtain ⟨x, hx, hxid⟩ := List.mem_map.1 hid
      have := List.find?_eq_none.1 hf x hx
      simp [hxid] at this
  intro p hp
  refine ⟨heff p hp, ?_⟩
  intro nodes hn s hs q hq
  have : q.perturbation ∈ P.perturbations := by
    obtain ⟨i, hi, rfl⟩ := List.mem_iff_getElem.1 hs
    have hl := hn.length_eq
    have hof := hn.get (i := i) (by omega) hi
    obtain ⟨j, hj, rfl⟩ := List.mem_iff_getElem.1 hq
    have hl' : _ = (P.init.estimators[i]).sensitivities.length := hof.sensitivities.length_eq
    exact firstNamed_mem (hof.sensitivities.get (i := j) (by omega) hj).1
  obtain ⟨x, hx⟩ := heff p hp q.perturbation this
  unfold Sensitivity.getScore
  rw [hx]
  exact ⟨_, rfl⟩

/-- **C57** With the unique names that the schema demands and bins that the constructors of bins
accept, the set is as the results about scoring (C34 to C37) and about the driver (C31, C32) need
it: estimators and sensitivities are determined by their names, there is one score per bin, and all
scores are zero. -/
theorem C57_fresh {w : World} {qs : List Perturbation} {nodes : List EstimatorNode}
    (hnames : (nodes.map EstimatorNode.name).Nodup)
    (hbins : ∀ n ∈ nodes, ∀ b, n.bins = .ok b → CreatedParticleBins b)
    {s : EstimatorSet} (hs : List.Forall₂ (EstimatorOf w qs) nodes s.estimators) :
    FreshSet s := by
  have hmem : ∀ e ∈ s.estimators, ∃ n ∈ nodes, EstimatorOf w qs n e := by
    intro e he
    obtain ⟨i, hi, rfl⟩ := List.mem_iff_getElem.1 he
    have hl := hs.length_eq
    exact ⟨nodes[i], List.getElem_mem _, hs.get (by omega) hi⟩
  have hsens : ∀ e ∈ s.estimators, ∀ q ∈ e.sensitivities, ∃ n ∈ nodes, EstimatorOf w qs n e ∧
      ∃ name, FirstNamed Perturbation.name qs name q.perturbation ∧ q.surface = e.surface ∧
        Empty (n.name ++ "::" ++ q.perturbation.name) e.base.bins q.base := by
    intro e he q hq
    obtain ⟨n, hn, hof⟩ := hmem e he
    obtain ⟨i, hi, rfl⟩ := List.mem_iff_getElem.1 hq
    have hl := hof.sensitivities.length_eq
    exact ⟨n, hn, hof, _, hof.sensitivities.get (by omega) hi⟩
  refine ⟨⟨?_, ?_, ?_, ?_⟩, ⟨?_, ?_⟩, ?_⟩
  · intro e he e' he' hname
    obtain ⟨i, hi, rfl⟩ := List.mem_iff_getElem.1 he
    obtain ⟨j, hj, rfl⟩ := List.mem_iff_getElem.1 he'
    have hl := hs.length_eq
    have h1 := (hs.get (i := i) (by omega) hi).base.name
    have h2 := (hs.get (i := j) (by omega) hj).base.name
    have h3 : (nodes.map EstimatorNode.name)[i]'(by simp; omega) =
        (nodes.map EstimatorNode.name)[j]'(by simp; omega) := by
      rw [List.getElem_map, List.getElem_map]
      exact h1.symm.trans (hname.trans h2)
    have := (List.Nodup.getElem_inj_iff hnames).1 h3
    subst this
    rfl
  · intro e he q hq q' hq' hname
    obtain ⟨n, _, hof, name, h1, h2, h3⟩ := hsens e he q hq
    obtain ⟨n', _, hof', name', h1', h2', h3'⟩ := hsens e he q' hq'
    have hnn : n.name = n'.name := hof.base.name.symm.trans hof'.base.name
    have : q.perturbation.name = q'.perturbation.name := by
      rw [h3.name, h3'.name, hnn] at hname
      exact String.append_right_inj _ |>.1 hname
    have hqq : q.perturbation = q'.perturbation := by
      rw [firstNamed_name h1, firstNamed_name h1'] at this
      subst this
      exact firstNamed_unique h1 h1'
    have hb : q.base = q'.base := by
      rw [empty_unique h3, empty_unique h3', hnn, this]
    cases q
    cases q'
    simp only at h2 h2' hqq hb ⊢
    subst hqq hb
    rw [h2, h2']
  · intro e he
    obtain ⟨n, _, hof⟩ := hmem e he
    exact ⟨hof.base.length, hof.base.squareLength⟩
  · intro e he q hq
    obtain ⟨n, _, hof, name, h1, h2, h3⟩ := hsens e he q hq
    exact ⟨h3.length.trans (by rw [h3.bins]), h3.squareLength.trans (by rw [h3.bins])⟩
  · intro e he
    obtain ⟨n, hn, hof⟩ := hmem e he
    exact hbins n hn _ hof.bins
  · intro e he q hq
    obtain ⟨n, hn, hof, name, h1, h2, h3⟩ := hsens e he q hq
    rw [h3.bins]
    exact hbins n hn _ hof.bins
  · have hz : ∀ (b : Scorable) (name : String) (bins : ParticleBins), Empty name bins b →
        b = b.withTally (fun _ => (0 : ℝ × ℝ)) := by
      intro b name bins h
      rw [empty_unique h]
      unfold Scorable.withTally Scorable.fresh
      simp only [Prod.fst_zero, Prod.snd_zero, List.map_const', List.length_range]
    unfold EstimatorSet.withTallies
    obtain ⟨es, wt⟩ := s
    simp only
    congr 1
    symm
    conv_rhs => rw [← List.map_id es]
    apply List.map_congr_left
    intro e he
    obtain ⟨n, hn, hof⟩ := hmem e he
    unfold Estimator.withTallies
    obtain ⟨base, surf, ss⟩ := e
    simp only [id]
    congr 1
    · exact (hz base _ _ hof.base).symm
    · conv_rhs => rw [← List.map_id ss]
      apply List.map_congr_left
      intro q hq
      obtain ⟨_, _, _, name, h1, h2, h3⟩ := hsens _ he q hq
      obtain ⟨b, sf, qq⟩ := q
      simp only [id]
      congr 1
      exact (hz b _ _ h3).symm

/-- A document with one estimator that asks for a sensitivity twice. -/
noncomputable def twoAsked : EstimatorNode := ⟨true, "right", "a", .ok oneBin, ["q", "q"]⟩

/-- A world with two planes. -/
noncomputable def planesWorld : World :=
  ⟨[⟨4, "b", .planeX 1⟩, ⟨3, "a", .planeX 2⟩], [absorber 7 "n" 2], [], .constant 300, []⟩

theorem twoAsked_defined : NodeDefined planesWorld [exampleQ] twoAsked where
  isCurrent := rfl
  bins := ⟨_, rfl⟩
  surface := ⟨⟨3, "a", .planeX 2⟩, by simp [planesWorld], rfl⟩
  sensitivities := by
    intro name hn
    have : name = "q" := by simpa [twoAsked] using hn
    exact ⟨exampleQ, by simp, by rw [this]; rfl⟩

/-- Instance of `C57_set_as_described`, `C57_built_iff`, `C57_fresh` and `C57_lookup`. -/
example : ∃ s, createEstimatorSet planesWorld [exampleQ] [twoAsked] 5 = .ok s ∧ FreshSet s ∧
    ∃ e, s.findEstimatorByName "right" = .ok e ∧ e.surface = ⟨3, "a", .planeX 2⟩ ∧
      e.sensitivities.map (fun q => q.base.name) = ["right::q", "right::q"] := by
  obtain ⟨s, hs, _, hof⟩ := C57_set_as_described (w := planesWorld) (qs := [exampleQ])
    (nodes := [twoAsked]) (by
      intro n hn
      rw [List.mem_singleton.1 hn]
      exact twoAsked_defined) 5
  refine ⟨s, hs, C57_fresh (by simp) (by
    intro n hn b hb
    rw [List.mem_singleton.1 hn] at hb
    cases hb
    exact oneBin_created) hof, ?_⟩
  rcases hes : s.estimators with _ | ⟨e, _ | ⟨_, _⟩⟩
  · rw [hes] at hof
    cases hof
  · rw [hes] at hof
    cases hof with
    | cons h1 _ =>
    refine ⟨e, ?_, ?_, ?_⟩
    · refine ((C57_lookup s "right").1 e).2 ⟨[], [], by rw [hes]; rfl, h1.base.name, by simp⟩
    · refine firstNamed_unique h1.surface ⟨[⟨4, "b", .planeX 1⟩], [], rfl, rfl, ?_⟩
      intro m hm
      rw [List.mem_singleton.1 hm]
      decide
    · have hq : ∀ name q, FirstNamed Perturbation.name [exampleQ] name q → q = exampleQ :=
        fun _ _ h => List.mem_singleton.1 (firstNamed_mem h)
      have h2 := h1.sensitivities
      have h3 : twoAsked.sensitivities = ["q", "q"] := rfl
      rw [h3] at h2
      rcases e with ⟨b, sf, ss⟩
      simp only at h2 ⊢
      cases h2 with
      | cons a h2 =>
      cases h2 with
      | cons a' h2 =>
      cases h2
      simp only [List.map_cons, List.map_nil, a.2.2.name, a'.2.2.name, hq _ _ a.1, hq _ _ a'.1]
      rfl
  · rw [hes] at hof
    cases hof with
    | cons _ h => cases h

/-- Instance of `C57_undefined`: a surface that does not exist. -/
example : createEstimatorSet planesWorld [exampleQ] [twoAsked, { twoAsked with surface := "c" }] 5 =
    .error .runtimeError :=
  (C57_undefined (w := planesWorld) (qs := [exampleQ]) (l := [twoAsked]) (r := [])
    (node := { twoAsked with surface := "c" }) (by
      intro n hn
      rw [List.mem_singleton.1 hn]
      exact twoAsked_defined) rfl 5).1 oneBin rfl twoAsked_defined.sensitivities (by
      rintro ⟨s, hs, hn⟩
      rcases List.mem_cons.1 hs with rfl | hs
      · simp at hn
      · rw [List.mem_singleton.1 hs] at hn
        simp at hn)

/-- Instance of `C57_undefined`: a perturbation that does not exist. -/
example : createEstimatorSet planesWorld [] [twoAsked] 5 = .error .terminate :=
  (C57_undefined (w := planesWorld) (qs := []) (l := []) (r := []) (node := twoAsked) (by simp)
    rfl 5).2.1 oneBin rfl (by
      intro h
      obtain ⟨q, hq, _⟩ := h "q" (by simp [twoAsked])
      cases hq)

/-- Instance of `C57_perturbations`. -/
example : ∃ qs, createPerturbations planesWorld [9] [⟨"q", "n"⟩] = .ok qs ∧
    qs.map Perturbation.nuclideId = [7] := by
  obtain ⟨qs, h1, _, h2⟩ := (C57_perturbations (w := planesWorld) (ids := [9])
    (nodes := [⟨"q", "n"⟩]) rfl).1 (by
      intro n hn
      rw [List.mem_singleton.1 hn]
      exact ⟨absorber 7 "n" 2, by simp [planesWorld], rfl⟩)
  refine ⟨qs, h1, ?_⟩
  cases h2 with
  | cons h h2 =>
  cases h2
  obtain ⟨n, hn, hid⟩ := h.nuclide
  have : n = absorber 7 "n" 2 := List.mem_singleton.1 (firstNamed_mem hn)
  simp only [List.map_cons, List.map_nil, hid, this]
  rfl

/-- The absorbing slab with a perturbation of another nuclide and a sensitivity to it. -/
noncomputable def perturbedSlab : Problem :=
  { slabProblem 1 1 with
    perturbations := [⟨5, "q", 8⟩]
    init := ⟨[{
      base := ⟨"right", oneBin, [0], [0]⟩
      surface := plane3
      sensitivities := [⟨⟨"right::q", oneBin, [0], [0]⟩, plane3, ⟨5, "q", 8⟩⟩] }], 1⟩ }

/-- Instance of `C57_effects_present`: one state is scored, and the sensitivity has a score for
it. -/
example : ∃ q, perturbedSlab.history 1 0 = .ok [q] ∧
    ∀ s ∈ perturbedSlab.init.estimators, ∀ x ∈ s.sensitivities, ∃ v, x.getScore q = .ok v := by
  let b : Born := ⟨⟨2, 0, 0⟩, ⟨1, 0, 0⟩, .group 1, .neutron, Rng.next (Rng.ofSeed 1), none⟩
  have hrun := slab_leak_run ((Particle.ofBorn b).setPerturbations [⟨5, "q", 8⟩]) 0 rfl (by
    intro e he
    have : e = ((⟨5, "q", 8⟩ : Perturbation), (0 : ℝ)) := by
      simpa [Particle.setPerturbations, getIndirectEffects, emplaceByAddr] using he
    rw [this]
    decide) rfl rfl rfl
  have hh : ∃ q, perturbedSlab.history 1 0 = .ok [q] := by
    refine ⟨{ (Particle.ofBorn b).setPerturbations [⟨5, "q", 8⟩] with
          cell := some ⟨"out", [], none, .constant 300⟩
          position := ⟨3 + 10 / 2 ^ 52, 0, 0⟩
          rng := (Rng.canonical ((Particle.ofBorn b).setPerturbations [⟨5, "q", 8⟩]).rng).2
          currentSurface := some plane3
          event := .leak }, ?_⟩
    unfold Problem.history
    have hs : perturbedSlab.source.sample (perturbedSlab.seed + 0) = .ok b := rfl
    rw [hs]
    simp only [bind, Except.bind]
    have hp := processBank_concat (run := transport .surfaceTracking 1 (absorbingWorld slabWalls 0))
      (qs := [⟨5, "q", 8⟩]) 0 [] (Particle.ofBorn b)
    rw [hrun] at hp
    simp only [bind, Except.bind] at hp
    have hk : ((Particle.ofBorn b).setPerturbations [⟨5, "q", 8⟩]).secondaries = [] := rfl
    rw [hk] at hp
    simp only [List.nil_append, List.map_nil, List.append_nil, processBank_nil] at hp
    have e1 : perturbedSlab.method = .surfaceTracking := rfl
    have e2 : perturbedSlab.world = absorbingWorld slabWalls 0 := rfl
    have e3 : perturbedSlab.perturbations = [⟨5, "q", 8⟩] := rfl
    rw [e1, e2, e3]
    simp only [Nat.zero_add] at hp
    rw [hp]
    rfl
  obtain ⟨q, hq⟩ := hh
  refine ⟨q, hq, (C57_effects_present hq q (by simp)).2
    [⟨true, "right", "b", .ok oneBin, ["q"]⟩] (.cons ?_ .nil)⟩
  have hz : ∀ name, Empty name oneBin ⟨name, oneBin, [0], [0]⟩ := fun name =>
    ⟨rfl, rfl, rfl, rfl, by simp, by simp⟩
  refine ⟨rfl, hz _, ⟨[plane1], [], rfl, rfl, ?_⟩, .cons ⟨⟨[], [], rfl, rfl, by simp⟩, rfl, hz _⟩ .nil⟩
  intro m hm
  rw [List.mem_singleton.1 hm]
  decide

end Minimc.Props
