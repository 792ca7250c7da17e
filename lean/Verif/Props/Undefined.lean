import Verif.Lemmas.Undefined
import Verif.Props.RunSafety
import Verif.Props.ThermalExact
import Verif.Props.ContinuousSafety

/-! # Property C86: the only causes of undefined behaviour in a history -/

namespace Minimc.Props

open Classical Spec

/-- **C86** With sound data, whatever they are otherwise, the transport of a particle has undefined
behaviour exactly when the particle is alive and starts where the first cell has no material. -/
theorem C86_transport {w : World} (hw : FilledData w) (method : Method) (fuel : ℕ) (p : Particle) :
    transport method fuel w p = .error .ub ↔ fuel ≠ 0 ∧ ¬ Ended p ∧ StartsInVoid w p := by
  constructor
  · intro h
    have hv : StartsInVoid w p := by
      by_contra hv
      exact defined_transport hw method fuel hv h
    obtain ⟨c, hc, hm⟩ := hv
    have hloc : p.locate w = .ok { p with cell := some c } := locate_ok.2 ⟨c, hc, rfl⟩
    have key : fuel ≠ 0 ∧ ({ p with cell := some c } : Particle).isAlive = true := by
      by_contra hno
      unfold transport at h
      rw [hloc] at h
      simp only [bind, Except.bind] at h
      cases fuel with
      | zero =>
        unfold transportLoop at h
        split at h <;> cases h
      | succ n =>
        unfold transportLoop at h
        rw [if_neg (fun ha => hno ⟨n.succ_ne_zero, ha⟩)] at h
        cases h
    exact ⟨key.1, (alive_iff _).1 key.2, c, hc, hm⟩
  · rintro ⟨hf, ha, c, hc, hm⟩
    obtain ⟨n, rfl⟩ := Nat.exists_eq_succ_of_ne_zero hf
    exact C55_void_start_violated method n hc hm ha

theorem bank_defined {P : Problem} (hw : FilledData P.world) (fuel e n : ℕ) (bank : Bank)
    (hb : ∀ p ∈ bank, Handled P fuel e (p.setPerturbations P.perturbations))
    (hv : ∀ p, Handled P fuel e p → ¬ StartsInVoid P.world p) :
    Defined (processBank (transport P.method fuel P.world) P.perturbations n bank) := by
  induction n generalizing bank with
  | zero =>
    rcases bank.eq_nil_or_concat' with rfl | ⟨b, p, rfl⟩
    · rw [processBank_nil]; exact defined_ok _
    · rw [processBank_zero]; exact defined_err (by decide)
  | succ n ih =>
    rcases bank.eq_nil_or_concat' with rfl | ⟨b, p, rfl⟩
    · rw [processBank_nil]; exact defined_ok _
    · have hh := hb p (by simp)
      rw [processBank_concat]
      refine defined_bind (defined_transport hw _ _ (hv _ hh)) (fun r hr => ?_)
      obtain ⟨last, scored⟩ := r
      refine defined_bind (ih _ ?_) (fun _ _ => defined_ok _)
      intro q hq
      rcases List.mem_append.1 hq with hq | hq
      · obtain ⟨x, hx, rfl⟩ := List.mem_map.1 hq
        exact .secondary hh hr hx
      · exact hb q (by simp [hq])

/-- **C86** With sound data a history has undefined behaviour only if the source or a fission puts a
particle where the first cell has no material. -/
theorem C86_history {P : Problem} (hw : FilledData P.world) {fuel e : ℕ}
    (h : P.history fuel e = .error .ub) :
    ∃ p, Handled P fuel e p ∧ StartsInVoid P.world p := by
  by_contra hno
  push Not at hno
  revert h
  change Defined (P.history fuel e)
  unfold Problem.history
  refine defined_bind ?_ (fun born hb => defined_bind (bank_defined hw fuel e fuel _ ?_ hno)
    (fun _ _ => defined_ok _))
  · unfold Source.sample DirectionDist.sample isotropicFluxOf
    refine defined_bind ?_ (fun _ _ => defined_ok _)
    split
    · exact defined_ok _
    · exact defined_ok _
    · exact defined_bind (defined_rotated _ _ _) (fun _ _ => defined_ok _)
  · intro p hp
    obtain rfl := List.mem_singleton.1 hp
    exact .source hb

/-- **C86** Scoring and committing a history has undefined behaviour only if a state that scores
asks for a logarithm that is not a number. -/
theorem C86_scoring {s : EstimatorSet} (hs : s.Shaped) (hb : s.BinsCreated)
    {states : List Particle} (h : s.addHistory states = .error .ub) :
    ∃ p ∈ states, ScoresNaN s p := by
  by_contra hno
  push Not at hno
  have hd := defined_scoreHistory hno s.getProxy
  rcases h1 : EstimatorSet.scoreHistory s.estimators states s.getProxy with er | xs
  · unfold EstimatorSet.addHistory at h
    rw [h1] at h hd
    cases h
    exact hd rfl
  · obtain ⟨s', h2⟩ := (C34_commit_iff hs hb states).2 (fun p hp =>
      canScore_iff.2 (scoreHistory_inv (holds_getProxy s) h1 p hp))
    rw [h2] at h
    cases h

theorem set_filled (k v : ℝ) (m : ContinuousMap) : Filled (m.set k v) := by
  unfold Filled
  cases m with
  | nil => simp [ContinuousMap.set]
  | cons e m =>
    obtain ⟨k', v'⟩ := e
    unfold ContinuousMap.set
    split_ifs <;> simp

theorem toMapLoop_filled {ds : DataSet} : ∀ {keys : List ℝ} {i : ℕ} {m r : ContinuousMap},
    ds.toMapLoop i keys m = .ok r → keys ≠ [] ∨ Filled m → Filled r
  | [], i, m, r, h, hm => by
    unfold DataSet.toMapLoop at h
    cases h
    exact hm.resolve_left (fun h => h rfl)
  | k :: keys, i, m, r, h, _ => by
    unfold DataSet.toMapLoop at h
    rw [res_bind_ok] at h
    obtain ⟨v, _, h⟩ := h
    exact toMapLoop_filled h (Or.inr (set_filled k v m))

/-- **C86** Thermal data have the majorant that is asked for once the file's axis of energies has an
entry; and building them has undefined behaviour only for a cross section without energies. -/
theorem C86_thermal (majorant xsT xsS xsE : DataSet) (bp ap : List Partition)
    (betaCutoff alphaCutoff awr : ℝ) :
    (∀ s, ThermalScattering.create majorant xsT xsS xsE bp ap betaCutoff alphaCutoff awr = .ok s →
      majorant.axes[0]? ≠ some [] → Filled s.majorant) ∧
    (ThermalScattering.create majorant xsT xsS xsE bp ap betaCutoff alphaCutoff awr = .error .ub →
      xsE.axes[0]? = some []) := by
  constructor
  · intro s h hk
    unfold ThermalScattering.create at h
    rw [noexcept_eq_ok] at h
    simp only [res_bind_ok] at h
    obtain ⟨m, hm, _, _, _, _, _, _, _, _, _, _, _, _, axis, _, h⟩ := h
    have hs : s.majorant = m := by
      split at h
      · cases h
      · cases h; rfl
    rw [hs]
    unfold DataSet.toContinuousMap at hm
    rw [res_bind_ok] at hm
    obtain ⟨keys, hkeys, hm⟩ := hm
    refine toMapLoop_filled hm (Or.inl ?_)
    rintro rfl
    unfold vecAt at hkeys
    split at hkeys
    · cases hkeys
      exact hk ‹_›
    · cases hkeys
  · intro h
    by_contra hne
    revert h
    change Defined _
    have hrows : ∀ ps, Defined (ThermalScattering.concatRows ps) := by
      intro ps
      induction ps with
      | nil => exact defined_ok _
      | cons P ps ih =>
        unfold ThermalScattering.concatRows
        exact defined_bind (defined_vecAt _ _) (fun _ _ => defined_bind ih (fun _ _ => defined_ok _))
    have hends : ∀ ps n, Defined (ThermalScattering.partitionEnds n ps) := by
      intro ps
      induction ps with
      | nil => intro n; exact defined_ok _
      | cons P ps ih =>
        intro n
        unfold ThermalScattering.partitionEnds
        exact defined_bind (defined_vecAt _ _) (fun _ _ => defined_bind (ih _)
          (fun _ _ => defined_ok _))
    have hinc : ∀ l x, Defined (ThermalScattering.assertIncreasing x l) := by
      intro l
      induction l with
      | nil => intro x; exact defined_ok _
      | cons y l ih =>
        intro x
        unfold ThermalScattering.assertIncreasing
        split
        · exact ih _
        · exact defined_err (by decide)
    have hmap : ∀ (keys : List ℝ) i m, Defined (majorant.toMapLoop i keys m) := by
      intro keys
      induction keys with
      | nil => intro i m; exact defined_ok _
      | cons k keys ih =>
        intro i m
        unfold DataSet.toMapLoop
        exact defined_bind (defined_dataAt _ _ _) (fun _ _ => ih _ _)
    unfold ThermalScattering.create
    refine defined_noexcept ?_
    refine defined_bind (defined_bind (defined_vecAt _ _) (fun _ _ => hmap _ _ _)) (fun _ _ => ?_)
    refine defined_bind (hrows _) (fun _ _ => defined_bind (hinc _ _) (fun _ _ => ?_))
    refine defined_bind (hends _ _) (fun _ _ => defined_bind (hrows _) (fun _ _ => ?_))
    refine defined_bind (hinc _ _) (fun _ _ => defined_bind (hends _ _) (fun _ _ => ?_))
    refine defined_bind (defined_vecAt _ _) (fun axis ha => ?_)
    split
    · rename_i hl
      rw [List.getLast?_eq_none_iff] at hl
      subst hl
      unfold DataSet.getAxis vecAt at ha
      split at ha
      · cases ha
        exact absurd ‹_› hne
      · cases ha
    · exact defined_ok _

/-- **C86** The yield is among the causes: with a tabulated yield of minus two or less, fission has
undefined behaviour. -/
theorem C86_negative_yield {m : Multigroup} {l : List ℝ} {p : Particle} {g : ℕ} {nu : ℝ}
    (hl : m.nubar = some l) (hg : p.energy = .group (g + 1)) (hnu : l[g]? = some nu) (h2 : nu ≤ -2)
    (hr : Rng.Valid p.rng) : m.fission p = .error .ub := by
  have hu : (Rng.canonical p.rng).1 < 1 := Rng.canonical_lt_one hr
  have h1 : Multigroup.oneAt l (g + 1) = .ok nu := by
    simp [Multigroup.oneAt, vecAt, hnu]
  have h3 : toSize (nu + (Rng.canonical p.rng).1) = .error .ub := by
    unfold toSize
    rw [if_pos (by linarith)]
  unfold Multigroup.fission
  simp only [bind, Except.bind, hg, Energy.getGroup, hl, Multigroup.optValue, h1, Particle.sample,
    h3]
  rfl

/-! ## Examples -/

/-- A cell without surfaces, filled with one nuclide at 300 K. -/
noncomputable def filledCell (d : Continuous) : Cell :=
  ⟨"all", [], some ⟨"m", [(⟨1, "n", fun _ => some (.continuous d)⟩, 1)], 1⟩, .constant 300⟩

/-- A world that consists of it. -/
noncomputable def filledWith (d : Continuous) : World where
  cells := [filledCell d]
  surfaces := []
  nuclides := [⟨1, "n", fun _ => some (.continuous d)⟩]
  materials := [⟨"m", [(⟨1, "n", fun _ => some (.continuous d)⟩, 1)], 1⟩]
  temperature := .constant 300

theorem filledWith_first (d : Continuous) (x : Point) :
    FirstCell (filledWith d) x (filledCell d) :=
  ⟨[], [], rfl, by simp [InCell, filledCell], by simp⟩

/-- **C86** An empty table is among the causes: in a world filled with a nuclide whose total cross
section has no entry, the first flight of every living neutron has undefined behaviour, although the
neutron is in a cell with material. -/
theorem C86_empty_table (rs : List ContinuousReaction) (hrs : ∀ r ∈ rs, ∃ ev, r = .capture ev)
    (method : Method) (fuel : ℕ) {p : Particle} {e : ℝ} (he : p.energy = .continuous e)
    (ha : ¬ Ended p) :
    transport method (fuel + 1) (filledWith ⟨rs, ⟨[], 300⟩⟩) p = .error .ub ∧
      ¬ StartsInVoid (filledWith ⟨rs, ⟨[], 300⟩⟩) p := by
  have hloc := locate_ok.2 ⟨_, filledWith_first ⟨rs, ⟨[], 300⟩⟩ p.position, rfl⟩
  have hany : ∀ (q : Particle) (l : List ContinuousReaction), (∀ r ∈ l, ∃ ev, r = .capture ev) →
      Continuous.anyModifies q l = .ok false := by
    intro q l
    induction l with
    | nil => intro _; rfl
    | cons r l ih =>
      intro hl
      obtain ⟨ev, rfl⟩ := hl r (by simp)
      unfold Continuous.anyModifies
      simp only [ContinuousReaction.modifiesTotal, bind, Except.bind]
      exact ih (fun r hr => hl r (by simp [hr]))
  constructor
  · unfold transport
    rw [hloc]
    simp only [bind, Except.bind]
    unfold transportLoop
    have ha' : ({ p with cell := some (filledCell ⟨rs, ⟨[], 300⟩⟩) } : Particle).isAlive = true :=
      (alive_iff _).2 ha
    rw [if_pos ha']
    have hv : (⟨[], 300⟩ : ContinuousEvaluation).isValid 300 = true := by
      norm_num [ContinuousEvaluation.isValid, temperatureTolerance]
    have hd : ∀ method, collisionDensity method { p with
        cell := some (filledCell ⟨rs, ⟨[], 300⟩⟩) } = .error .ub := by
      intro method
      cases method <;>
      · unfold collisionDensity
        simp only [Particle.getCell, filledCell, bind, Except.bind, Material.getMicroscopicTotal,
          Material.getMicroscopicMajorant, sumLoop,
          Nuclide.getTotal, Nuclide.getMajorant, Nuclide.xsAt, Interaction.getTotal,
          Interaction.getMajorant, Continuous.getTotal, Continuous.getMajorant,
          Particle.temperatureAt, Particle.temperatureUpper, ScalarField.at',
          ScalarField.upperBound, hany _ rs hrs, hv, ContinuousReaction.tabulated, he,
          Energy.getContinuous, ContinuousMap.at']
        rfl
    have hs : transportStep method (fuel + 1) (filledWith ⟨rs, ⟨[], 300⟩⟩) { p with
        cell := some (filledCell ⟨rs, ⟨[], 300⟩⟩) } = .error .ub := by
      cases method <;>
      · simp only [transportStep, surfaceStep, deltaStep, sampleFlight, Particle.getCell, bind,
          Except.bind, hd]
        rfl
    rw [hs]
    rfl
  · rintro ⟨c, hc, hm⟩
    obtain ⟨l, r, hl, _⟩ := hc
    have : c ∈ (filledWith ⟨rs, ⟨[], 300⟩⟩).cells := by rw [hl]; simp
    rw [filledWith, List.mem_singleton] at this
    rw [this] at hm
    cases hm

/-- A neutron of the given energy in the middle of everything. -/
noncomputable def plainNeutron (e : ℝ) : Particle :=
  Particle.ofBorn ⟨⟨0, 0, 0⟩, ⟨1, 0, 0⟩, .continuous e, .neutron, 1, none⟩

/-- Instance of `C86_empty_table`. -/
example : transport .surfaceTracking 5 (filledWith ⟨[.capture ⟨[(1, 1)], 300⟩], ⟨[], 300⟩⟩)
    (plainNeutron 1) = .error .ub :=
  (C86_empty_table _ (by simp) _ 4 (e := 1) rfl (by simp [Ended, plainNeutron,
    Particle.ofBorn])).1

/-- Instance of `C86_transport` and `C86_history`: data with thermal scattering from the example of
C84, cross sections that are negative and a yield. -/
example : ∃ s, FilledData (filledWith
    ⟨[.capture ⟨[(1, -1)], 0⟩, .scatter ⟨[(3, 2), (1, 5)], 300⟩ (some s) 1,
      .fission ⟨[(1, 3)], 900⟩ (some [(1, 2), (2, 0)])], ⟨[(1, 6)], -5⟩⟩) := by
  obtain ⟨s, hs⟩ := exampleTables_created
  have hm := (C86_thermal _ _ _ _ _ _ _ _ _).1 s hs (by simp)
  refine ⟨s, ?_⟩
  intro c hc m hm' e he t i hi
  rw [filledWith, List.mem_singleton] at hc
  subst hc
  cases hm'
  simp only [List.mem_singleton] at he
  subst he
  cases hi
  refine ⟨by simp [Filled], ?_⟩
  intro r hr
  simp only [List.mem_cons, List.not_mem_nil, or_false] at hr
  rcases hr with rfl | rfl | rfl
  · simp [FilledReaction, Filled]
  · refine ⟨by simp [Filled], ?_⟩
    intro s' h
    cases h
    exact hm
  · refine ⟨by simp [Filled], ?_⟩
    intro t h
    cases h
    refine ⟨by simp [Filled], ?_⟩
    intro e he
    simp only [List.mem_cons, List.not_mem_nil, or_false] at he
    rcases he with rfl | rfl <;> norm_num

/-- Instance of `C86_transport` and `C86_history`: a slab in void and a particle outside of it. -/
example : FilledData (gasSlab 300) ∧ ¬ Ended (plainNeutron 1) ∧
    StartsInVoid (gasSlab 300) (plainNeutron 1) := by
  refine ⟨?_, by simp [Ended, plainNeutron, Particle.ofBorn], ⟨"out", [], none, .constant 300⟩,
    ⟨[_], [], rfl, by simp [InCell], ?_⟩, rfl⟩
  · intro c hc m hm e he t i hi
    obtain rfl := (gasSlab_material 300 c hc).2 m hm
    obtain rfl := List.mem_singleton.1 he
    cases hi
    refine ⟨by simp [Filled, gasData], ?_⟩
    intro r hr
    simp only [gasData, List.mem_cons, List.not_mem_nil, or_false] at hr
    rcases hr with rfl | rfl | rfl <;> simp [FilledReaction, Filled]
  · intro c hc hin
    obtain rfl := List.mem_singleton.1 hc
    have := hin (plane1, false) (by simp [slabWalls])
    change (Surface.planeX 1).contains _ = false at this
    have h : (Surface.planeX 1).contains (plainNeutron 1).position = true := by
      rw [planeXContains_iff]
      norm_num [Inside, surfaceValue, plainNeutron, Particle.ofBorn]
    rw [h] at this
    cases this

/-- Instance of `C86_history`: a source outside of the slab. -/
example : Problem.history { gasProblem with
    source := ⟨⟨0, 0, 0⟩, .constant ⟨1, 0, 0⟩, .continuous 1, .neutron⟩ } 5 3 = .error .ub := by
  set P : Problem := { gasProblem with
    source := ⟨⟨0, 0, 0⟩, .constant ⟨1, 0, 0⟩, .continuous 1, .neutron⟩ } with hP
  obtain ⟨b, hb, hx⟩ : ∃ b, P.source.sample (P.seed + 3) = .ok b ∧ b.position = ⟨0, 0, 0⟩ :=
    ⟨_, rfl, rfl⟩
  have ht : transport P.method 5 P.world ((Particle.ofBorn b).setPerturbations P.perturbations) =
      .error .ub := by
    refine C55_void_start_violated (c := ⟨"out", [], none, .constant 300⟩) _ 4
      ⟨[_], [], rfl, by simp [InCell], ?_⟩ rfl
      (by simp [Ended, Particle.setPerturbations, Particle.ofBorn])
    intro c hc hin
    obtain rfl := List.mem_singleton.1 hc
    have := hin (plane1, false) (by simp [slabWalls])
    change (Surface.planeX 1).contains b.position = false at this
    have h : (Surface.planeX 1).contains b.position = true := by
      rw [hx, planeXContains_iff]
      norm_num [Inside, surfaceValue]
    rw [h] at this
    cases this
  have hc := processBank_concat (run := transport P.method 5 P.world) (qs := P.perturbations) 4 []
    (Particle.ofBorn b)
  rw [List.nil_append] at hc
  unfold Problem.history
  simp only [hb, bind, Except.bind, hc, ht]

/-- An estimator with three bins for the logarithm of the cosine with the negative axis. -/
noncomputable def logSet (plane : SurfaceObj) : EstimatorSet where
  estimators := [⟨⟨"right", ⟨some ⟨-1, 0, 0⟩, .logspace 3 10 0 1 1, .none, (1, 1)⟩, [0, 0, 0],
    [0, 0, 0]⟩, plane, []⟩]
  totalWeight := 1

/-- Instance of `C86_scoring`: the set is accepted, and scoring a particle has undefined
behaviour. -/
example : (logSet plane1).Shaped ∧ (logSet plane1).BinsCreated ∧
    (logSet plane1).addHistory [exampleState 2 plane1 .surfaceCross] = .error .ub := by
  have hone : ∀ e ∈ (logSet plane1).estimators, e = ⟨⟨"right", ⟨some ⟨-1, 0, 0⟩,
      .logspace 3 10 0 1 1, .none, (1, 1)⟩, [0, 0, 0], [0, 0, 0]⟩, plane1, []⟩ := by
    intro e he
    exact List.mem_singleton.1 he
  refine ⟨⟨?_, ?_, ?_, ?_⟩, ⟨?_, ?_⟩, ?_⟩
  · intro e he e' he' _
    rw [hone e he, hone e' he']
  · intro e he q hq
    rw [hone e he] at hq
    cases hq
  · intro e he
    rw [hone e he]
    exact ⟨rfl, rfl⟩
  · intro e he q hq
    rw [hone e he] at hq
    cases hq
  · intro e he
    rw [hone e he]
    refine ⟨.logspace 3 10 0 1 1, .none, .logspace (bins := 1) (base := 10) (min := 0) (max := 1)
      le_rfl ?_, .none, rfl⟩
    simp only [Bins.createLogspace]
    rw [if_neg (by norm_num)]
    norm_num
  · intro e he q hq
    rw [hone e he] at hq
    cases hq
  · have hs : currentScore plane1 (exampleState 2 plane1 .surfaceCross) = 1 := by
      rw [currentScore_eq, if_pos ⟨plane1, rfl, rfl, Or.inl rfl⟩]
    have hi : Bins.getIndex (.logspace 3 10 0 1 1) (Point.dot ⟨-1, 0, 0⟩
        (exampleState 2 plane1 .surfaceCross).direction) = .error .ub := by
      rw [C10_undefined_iff]
      left
      norm_num [Point.dot, exampleState, Particle.ofBorn]
    have hp : Pending.score ⟨some ⟨-1, 0, 0⟩, .logspace 3 10 0 1 1, .none, (1, 1)⟩ (.ok 1)
        (exampleState 2 plane1 .surfaceCross) [] = .error .ub := by
      unfold Pending.score ParticleBins.getIndex
      simp only [bind, Except.bind, one_ne_zero, if_false, hi]
      rfl
    unfold EstimatorSet.addHistory EstimatorSet.scoreHistory EstimatorSet.getProxy logSet
    simp only [List.map_cons, EstimatorSet.scoreAll, EstimatorProxy.score, EstimatorProxy.create,
      hs, hp, bind, Except.bind]

/-- Instance of `C86_negative_yield`. -/
example : Multigroup.fission ⟨some [-2], none, none, [(.fission, [1])], [1], 1⟩
    (groupOne ⟨2, 0, 0⟩ ⟨1, 0, 0⟩ 1) = .error .ub :=
  C86_negative_yield (g := 0) rfl rfl rfl le_rfl (by norm_num [groupOne, Rng.Valid])

end Minimc.Props
