import Verif.Props.ContinuousSafety
import Verif.Props.ThermalExact

/-! # Property C66: an example with thermal data -/

namespace Minimc.Props

open Classical Spec

/-- Thermal data with the transfers of the example of C84, and with a total cross section of 6 up to
the energy 20. -/
theorem scatterer_created : ∃ s, ThermalScattering.create ⟨[[1]], [7]⟩ ⟨[[1], [0]], [3]⟩
    ⟨[[0]], [2]⟩ ⟨[[4, 20], [0]], [1, 1]⟩ energyParts momentumParts 10 60 1 = .ok s ∧
    s.majorant = [(1, 7)] ∧ s.scatterXsT = ⟨[[1], [0]], [3]⟩ ∧ s.scatterXsS = ⟨[[0]], [2]⟩ ∧
    s.scatterXsE = ⟨[[4, 20], [0]], [1, 1]⟩ ∧ s.cutoffEnergy = 20 ∧ s.betaCutoff = 10 ∧
    s.alphaCutoff = 60 ∧ s.awr = 1 := by
  have h1 : DataSet.toContinuousMap ⟨[[1]], [7]⟩ = .ok [(1, 7)] := by
    simp [DataSet.toContinuousMap, DataSet.toMapLoop, DataSet.at', DataSet.atFromBase, vecAt,
      bind, Except.bind, ContinuousMap.set]
  have h2 : ThermalScattering.concatRows energyParts = .ok [4, 20] := rfl
  have h3 : ThermalScattering.concatRows momentumParts = .ok [1, 9, 12] := rfl
  have h4 : ThermalScattering.partitionEnds 0 energyParts = .ok [1, 2] := rfl
  have h5 : ThermalScattering.partitionEnds 0 momentumParts = .ok [2, 3] := rfl
  have h6 : ThermalScattering.assertIncreasing 0 [4, 20] = .ok () := by
    norm_num [ThermalScattering.assertIncreasing]
  have h7 : ThermalScattering.assertIncreasing 0 [1, 9, 12] = .ok () := by
    norm_num [ThermalScattering.assertIncreasing]
  have h8 : DataSet.getAxis ⟨[[4, 20], [0]], [1, 1]⟩ 0 = .ok [4, 20] := rfl
  unfold ThermalScattering.create
  simp only [h1, h2, h3, h4, h5, h6, h7, h8, bind, Except.bind]
  exact ⟨_, rfl, rfl, rfl, rfl, rfl, rfl, rfl, rfl, rfl⟩

/-- The data of the example. -/
noncomputable def exampleScatterer : ThermalScattering := Classical.choose scatterer_created

theorem exampleScatterer_spec : ThermalScattering.create ⟨[[1]], [7]⟩ ⟨[[1], [0]], [3]⟩
    ⟨[[0]], [2]⟩ ⟨[[4, 20], [0]], [1, 1]⟩ energyParts momentumParts 10 60 1 = .ok exampleScatterer ∧
    exampleScatterer.majorant = [(1, 7)] ∧ exampleScatterer.scatterXsT = ⟨[[1], [0]], [3]⟩ ∧
    exampleScatterer.scatterXsS = ⟨[[0]], [2]⟩ ∧
    exampleScatterer.scatterXsE = ⟨[[4, 20], [0]], [1, 1]⟩ ∧ exampleScatterer.cutoffEnergy = 20 ∧
    exampleScatterer.betaCutoff = 10 ∧ exampleScatterer.alphaCutoff = 60 ∧
    exampleScatterer.awr = 1 :=
  Classical.choose_spec scatterer_created

theorem exampleScatterer_table : TotalTable exampleScatterer [4, 20] [1] (fun _ _ => 6) := by
  obtain ⟨_, _, hT, hS, hE, _⟩ := exampleScatterer_spec
  refine ⟨by norm_num, by simp, by simp, [0], [0], [0], fun _ => 2, fun _ _ => 1, fun _ _ => 3, rfl,
    rfl, ?_, ?_, ?_, ?_⟩
  · rw [hS]
    exact holds1 (f := fun _ => 2) (by intro i hi; simp at hi; subst hi; rfl)
  · rw [hE]
    refine holds2 (f := fun _ _ => 1) ?_
    intro i hi j hj
    simp at hi hj
    subst hj
    interval_cases i <;> rfl
  · rw [hT]
    refine holds2 (f := fun _ _ => 3) ?_
    intro i hi j hj
    simp at hi hj
    subst hi hj
    rfl
  · intro i j
    simp
    norm_num

theorem exampleScatterer_sound : SoundScatterer exampleScatterer := by
  obtain ⟨_, hM, _, _, _, hc, _⟩ := exampleScatterer_spec
  refine ⟨⟨_, _, _, exampleScatterer_table, ?_, fun _ _ _ _ => by norm_num⟩, fun e _ => ⟨7, ?_, by norm_num⟩⟩
  · rw [hc]
    rfl
  · rw [hM]
    exact single_table _ _ _

/-- A nuclide with thermal data that captures and scatters. -/
noncomputable def boundData : Continuous where
  reactions := [.capture ⟨[(1, 1)], 1 / boltzmann⟩,
    .scatter ⟨[(1, 2)], 1 / boltzmann⟩ (some exampleScatterer) 1]
  total := ⟨[(1, 3)], 1 / boltzmann⟩

noncomputable def boundNuclide : Nuclide where
  id := 1
  name := "h"
  xs := fun _ => some (.continuous boundData)

/-- A slab of it, surrounded by void. -/
noncomputable def boundSlab : World where
  cells := [⟨"in", slabWalls, some ⟨"m", [(boundNuclide, 1)], 1⟩, .constant (1 / boltzmann)⟩,
    ⟨"out", [], none, .constant (1 / boltzmann)⟩]
  surfaces := [plane1, plane3]
  nuclides := [boundNuclide]
  materials := [⟨"m", [(boundNuclide, 1)], 1⟩]
  temperature := .constant (1 / boltzmann)

theorem inv_boltzmann_pos : 0 < 1 / boltzmann := div_pos one_pos boltzmann_pos

theorem boundData_sound : SoundThermalData boundData := by
  have hT := inv_boltzmann_pos.le
  refine ⟨?_, hT, ?_⟩
  · intro r hr
    simp only [boundData, List.mem_cons, List.not_mem_nil, or_false] at hr
    rcases hr with rfl | rfl
    · exact ⟨fun e _ => ⟨_, single_table _ _ _, by norm_num⟩, hT, by simp, by simp⟩
    · refine ⟨fun e _ => ⟨_, single_table _ _ _, by norm_num⟩, hT, ?_, by simp⟩
      intro ev tsl awr h
      cases h
      exact ⟨by norm_num, fun s hs => by cases hs; exact exampleScatterer_sound⟩
  · intro e _ v hv
    have h1 := hv (.capture ⟨[(1, 1)], 1 / boltzmann⟩) (by simp [boundData])
    have h2 := hv (.scatter ⟨[(1, 2)], 1 / boltzmann⟩ (some exampleScatterer) 1) (by simp [boundData])
    simp only [ContinuousReaction.evaluation, single_table, Except.ok.injEq] at h1 h2
    simp only [boundData, single_table, List.map_cons, List.map_nil, List.sum_cons, List.sum_nil,
      ← h1, ← h2]
    norm_num

theorem boundSlab_first : FirstCell boundSlab ⟨2, 0, 0⟩
    ⟨"in", slabWalls, some ⟨"m", [(boundNuclide, 1)], 1⟩, .constant (1 / boltzmann)⟩ :=
  ⟨[], [⟨"out", [], none, .constant (1 / boltzmann)⟩], rfl, slab_in (by norm_num) (by norm_num),
    by simp⟩

theorem boundSlab_material : ∀ c ∈ boundSlab.cells, c.temperature = .constant (1 / boltzmann) ∧
    ∀ m, c.material = some m → m = ⟨"m", [(boundNuclide, 1)], 1⟩ := by
  intro c hc
  simp only [boundSlab, List.mem_cons, List.not_mem_nil, or_false] at hc
  rcases hc with rfl | rfl
  · exact ⟨rfl, fun m hm => by simpa using hm.symm⟩
  · exact ⟨rfl, fun m hm => by cases hm⟩

theorem boundSlab_sound : ThermalWorld boundSlab := by
  refine ⟨?_, ?_, ?_, ?_, ?_, ?_⟩
  · intro x
    exact ⟨⟨"out", [], none, .constant (1 / boltzmann)⟩, by simp [boundSlab], by simp [InCell]⟩
  · intro c hc hm
    simp only [boundSlab, List.mem_cons, List.not_mem_nil, or_false] at hc
    rcases hc with rfl | rfl
    · simp [slabWalls]
    · simp at hm
  · intro c hc m hm
    rw [(boundSlab_material c hc).2 m hm]; norm_num
  · intro c hc _
    rw [(boundSlab_material c hc).1]
    exact inv_boltzmann_pos.le
  · intro c hc m hm x hx
    rw [(boundSlab_material c hc).2 m hm] at hx
    obtain rfl := List.mem_singleton.1 hx
    exact ⟨one_pos, boundData, rfl, boundData_sound⟩
  · intro c hc m hm e _
    rw [(boundSlab_material c hc).2 m hm]
    exact ⟨_, List.mem_singleton.2 rfl, boundData, 3, rfl, single_table _ _ _, by norm_num⟩

/-- Its cross sections are not negative, whatever is asked for. -/
theorem boundData_total {q : Particle} {x : ℝ} (ht : q.temperatureAt = .ok (1 / boltzmann))
    (hx : boundData.getTotal q = .ok x) : 0 ≤ x := by
  have hT := inv_boltzmann_pos
  have hv : boundData.total.isValid (1 / boltzmann) = true := by
    have h0 : boundData.total.temperature = 1 / boltzmann := rfl
    unfold ContinuousEvaluation.isValid
    rw [h0, if_neg hT.ne']
    simp [temperatureTolerance]
    norm_num
  unfold Continuous.getTotal at hx
  rw [noexcept_eq_ok] at hx
  simp only [res_bind_ok] at hx
  obtain ⟨t, ht', b, hb, hx⟩ := hx
  rw [ht] at ht'
  cases ht'
  rw [hv] at hx
  cases b with
  | false =>
    have hx' : ContinuousReaction.tabulated boundData.total q = .ok x := hx
    obtain ⟨e, he, hx⟩ : ∃ e, q.energy.getContinuous = .ok e ∧
        boundData.total.xs.at' e = .ok x := by
      simpa only [ContinuousReaction.tabulated, res_bind_ok] using hx'
    rw [show boundData.total.xs = [(1, 3)] from rfl, single_table] at hx
    cases hx
    norm_num
  | true =>
    have hx' : sumLoop (fun r => ContinuousReaction.getCrossSection r q) 0 boundData.reactions =
      .ok x := hx
    obtain ⟨c1, h1, c2, h2, rfl⟩ : ∃ c1, ContinuousReaction.getCrossSection
        (.capture ⟨[(1, 1)], 1 / boltzmann⟩) q = .ok c1 ∧ ∃ c2, ContinuousReaction.getCrossSection
        (.scatter ⟨[(1, 2)], 1 / boltzmann⟩ (some exampleScatterer) 1) q = .ok c2 ∧
        0 + c1 + c2 = x := by
      simpa only [boundData, sumLoop, res_bind_ok, Except.ok.injEq] using hx'
    have hval : exampleScatterer.isValid q = .ok true := by
      simp only [boundData, Continuous.anyModifies, ContinuousReaction.modifiesTotal,
        ContinuousReaction.thermal, bind, Except.bind] at hb
      cases h : exampleScatterer.isValid q with
      | error e => rw [h] at hb; cases hb
      | ok b => cases b with
        | true => rfl
        | false => rw [h] at hb; cases hb
    obtain ⟨e, he, hlt⟩ : ∃ e, q.energy.getContinuous = .ok e ∧ e < exampleScatterer.cutoffEnergy := by
      have := hval
      unfold ThermalScattering.isValid at this
      rw [noexcept_eq_ok] at this
      simp only [res_bind_ok, Except.ok.injEq, Bool.and_eq_true, decide_eq_true_eq] at this
      obtain ⟨e, h1, _, h2⟩ := this
      exact ⟨e, h1, h2⟩
    obtain ⟨v, hv1, hv2⟩ := scatterer_total exampleScatterer_sound (t := 1 / boltzmann) hlt
    have g1 : ContinuousReaction.getCrossSection (.capture ⟨[(1, 1)], 1 / boltzmann⟩) q = .ok 1 := by
      unfold ContinuousReaction.getCrossSection ContinuousReaction.tabulated
      simp only [he, bind, Except.bind, single_table, noexcept_ok]
    have g2 : ContinuousReaction.getCrossSection
        (.scatter ⟨[(1, 2)], 1 / boltzmann⟩ (some exampleScatterer) 1) q = .ok v := by
      unfold ContinuousReaction.getCrossSection ThermalScattering.getTotal
      simp only [hval, he, ht, bind, Except.bind, hv1, noexcept_ok, if_true]
    rw [g1] at h1
    rw [g2] at h2
    cases h1
    cases h2
    linarith

theorem boundSlab_rates : NonnegRates .surfaceTracking boundSlab := by
  intro c hc m hm q hq x hx
  obtain ⟨h1, h2⟩ := boundSlab_material c hc
  obtain ⟨ht, -⟩ := temperature_in hq
  rw [h1] at ht
  obtain rfl := h2 m hm
  have hx' : Material.getMicroscopicTotal ⟨"m", [(boundNuclide, 1)], 1⟩ q = .ok x := hx
  unfold Material.getMicroscopicTotal at hx'
  simp only [noexcept_eq_ok, sumLoop, res_bind_ok, Except.ok.injEq] at hx'
  obtain ⟨y, ⟨z, hz, rfl⟩, rfl⟩ := hx'
  have hz' : boundData.getTotal q = .ok z := by
    unfold Nuclide.getTotal Nuclide.xsAt at hz
    rw [noexcept_eq_ok] at hz
    exact hz
  have := boundData_total ht hz'
  simpa using this

/-- A thousand histories of a beam in the slab. -/
noncomputable def boundProblem : Problem :=
  { slabProblem 1000 8 with
    world := boundSlab
    source := { (slabProblem 1000 8).source with energy := .continuous 5 } }

/-- Instance of the hypotheses of `C66_solve_partial` with thermal data: the tables serve the
neutrons of the source. -/
example : ThermalWorld boundProblem.world ∧
    (∀ c ∈ boundProblem.world.cells, ∀ x, 0 ≤ c.temperature.at' x) ∧
    EnergySource boundProblem.world boundProblem.source ∧ Configured boundProblem.source.direction ∧
    NonnegRates boundProblem.method boundProblem.world ∧
    (∀ c ∈ boundProblem.world.cells, ∀ s, Bounds s c → Conforming s.shape) ∧
    MaterialFirst boundProblem.world ∧ FreshSet boundProblem.init ∧
    (∃ ns, List.Forall₂ (EstimatorOf boundProblem.world boundProblem.perturbations) ns
      boundProblem.init.estimators) ∧
    (∀ x ∈ boundProblem.init.estimators, TotalBins x.base.bins) ∧
    Served exampleScatterer 5 (1 / boltzmann) (weight 4 20 5) (4, half 1) (20, half 1) := by
  refine ⟨boundSlab_sound, ?_, ⟨rfl, ⟨5, rfl, by norm_num⟩, _, boundSlab_first, by simp⟩,
    ?_, boundSlab_rates, ?_, ?_, slabProblem_fresh 1000 8, ?_, ?_, ?_⟩
  · intro c hc x
    rw [(boundSlab_material c hc).1]
    exact inv_boltzmann_pos.le
  · norm_num [boundProblem, slabProblem, Configured, UnitVec]
  · rintro c hc s ⟨b, hs⟩
    simp only [boundProblem, boundSlab, List.mem_cons, List.not_mem_nil, or_false] at hc
    rcases hc with rfl | rfl
    · simp only [slabWalls, List.mem_cons, List.not_mem_nil, or_false, Prod.mk.injEq] at hs
      rcases hs with ⟨rfl, _⟩ | ⟨rfl, _⟩ <;> trivial
    · simp at hs
  · intro x c hc hin hm c' hf
    simp only [boundProblem, boundSlab, List.mem_cons, List.not_mem_nil, or_false] at hc
    rcases hc with rfl | rfl
    · obtain ⟨l, r, hlr, _, hl⟩ := hf
      cases l with
      | nil =>
        have := (List.cons.inj hlr).1
        rw [← this]
        simp
      | cons y ys =>
        have := (List.cons.inj hlr).1
        exact absurd hin (this ▸ hl y (by simp))
    · simp at hm
  · refine ⟨[⟨true, "right", "b", .ok oneBin, []⟩], .cons ⟨rfl, ?_, ?_, .nil⟩ .nil⟩
    · exact ⟨rfl, rfl, rfl, rfl, by simp, by simp⟩
    · exact ⟨[plane1], [], rfl, rfl, by simp [plane1]⟩
  · intro x hx
    rw [List.mem_singleton.1 hx]
    exact ⟨by simp [oneBin], by simp [oneBin]⟩
  · obtain ⟨hc, _, _, _, _, _, h1, h2, h3⟩ := exampleScatterer_spec
    unfold Served
    rw [h1, h2, h3]
    exact ⟨_, _, _, _, _, _, _, _, hc, energyParts_tabulate, momentumParts_tabulate,
      inv_boltzmann_pos, one_pos, example_neighbours (by norm_num) (by norm_num),
      example_energy_sound (by norm_num), example_energy_sound (by norm_num),
      example_serves (by norm_num) (by norm_num)⟩

end Minimc.Props
