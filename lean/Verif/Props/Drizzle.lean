import Verif.Props.GasMixture
import Verif.Props.Plume

/-! # Instance of C104: a gas with refined tables -/

namespace Minimc.Props

open Classical Spec MeasureTheory ProbabilityTheory
open scoped ENNReal

/-- The data of `warmData` with more points in the tables. -/
noncomputable def drizzleData : Continuous where
  reactions := [.capture ⟨[(1, 2), (5, 2)], 300⟩, .scatter ⟨[(1, 1), (3 / 2, 2), (2, 3)], 300⟩ none 12,
    .fission ⟨[(1 / 2, 2), (1, 2)], 350⟩ (some [(1, 1), (7 / 4, 7 / 4), (2, 2)])]
  total := ⟨[(1, 5), (5 / 4, 11 / 2), (2, 7)], 250⟩

noncomputable def drizzleNuclide (id : ℕ) (name : String) : Nuclide where
  id := id
  name := name
  xs := fun _ => some (.continuous drizzleData)

/-- The nuclide is divided into two, and the fractions are not normalised. -/
noncomputable def drizzleGas : Material :=
  ⟨"drizzle", [(drizzleNuclide 1 "u1", 1 / 2), (drizzleNuclide 2 "u2", 3 / 2)], 1 / 24⟩

noncomputable def drizzleIn : Cell := ⟨"in", [(ball 1 1, true)], some drizzleGas, .constant 600⟩

/-- The problem `warmProblem`, written in another way. -/
noncomputable def drizzleProblem (method : Method) : Problem :=
  { warmProblem method with
    world := ⟨[ball 1 1], [drizzleNuclide 1 "u1", drizzleNuclide 2 "u2"], [drizzleGas],
      .constant 300, [drizzleIn, fogOut]⟩
    threads := 3 }

theorem drizzle_xs (t : ℝ) : SameData t warmData drizzleData := by
  have s1 : Sorted [((1 : ℝ), (2 : ℝ))] := by simp [Sorted]
  have s2 := pair_sorted 1 3
  have s3 := pair_sorted 1 2
  have t1 := (C104_point_outside [] [] (a := (1, 2))).2 s1 5 (by norm_num)
  have t2 := C104_point_between [] [] s2 (x := 3 / 2) (by norm_num) (by norm_num)
  have t3 := (C104_point_outside [] [] (a := (1, 2))).1 s1 (1 / 2) (by norm_num)
  have t4 := C104_point_between [] [] s3 (x := 7 / 4) (by norm_num) (by norm_num)
  have l2 : line (1, 1) (2, 3) (3 / 2) = 2 := by norm_num [line]
  have l4 : line (1, 1) (2, 2) (7 / 4) = 7 / 4 := by norm_num [line]
  rw [l2] at t2
  rw [l4] at t4
  have r1 := (C104_reactions (t := t) (ev := ⟨_, 300⟩) (ev' := ⟨_, 300⟩) s1 t1.1 (by simp) (by simp)
    fun e _ => t1.2 e).1
  have r2 := (C104_reactions (t := t) (ev := ⟨_, 300⟩) (ev' := ⟨_, 300⟩) s2 t2.1 (by simp) (by simp)
    fun e _ => t2.2 e).2.1 none none 12 (Or.inl rfl)
  have r3 := (C104_reactions (t := t) (ev := ⟨_, 300⟩) (ev' := ⟨_, 350⟩) s1 t3.1 (by simp) (by simp)
    fun e _ => t3.2 e).2.2 _ _ s3 t4.1 (by simp) (by simp) fun e _ => t4.2 e
  exact .cons r1 (.cons r2 (.cons r3 .nil))

theorem drizzle_tables : (∀ e, ContinuousMap.at' [(1, 2), (5, 2)] e = .ok 2) ∧
    (∀ e, ContinuousMap.at' [(1, 1), (3 / 2, 2), (2, 3)] e = ContinuousMap.at' [(1, 1), (2, 3)] e) ∧
    (∀ e, ContinuousMap.at' [(1 / 2, 2), (1, 2)] e = .ok 2) ∧
    (∀ e, ContinuousMap.at' [(1, 1), (7 / 4, 7 / 4), (2, 2)] e = ContinuousMap.at' [(1, 1), (2, 2)] e) ∧
    (∀ e, ContinuousMap.at' [(1, 5), (5 / 4, 11 / 2), (2, 7)] e = ContinuousMap.at' [(1, 5), (2, 7)] e) := by
  have s1 : Sorted [((1 : ℝ), (2 : ℝ))] := by simp [Sorted]
  have t1 := (C104_point_outside [] [] (a := (1, 2))).2 s1 5 (by norm_num)
  have t2 := C104_point_between [] [] (pair_sorted 1 3) (x := 3 / 2) (by norm_num) (by norm_num)
  have t3 := (C104_point_outside [] [] (a := (1, 2))).1 s1 (1 / 2) (by norm_num)
  have t4 := C104_point_between [] [] (pair_sorted 1 2) (x := 7 / 4) (by norm_num) (by norm_num)
  have t5 := C104_point_between [] [] (pair_sorted 5 7) (x := 5 / 4) (by norm_num) (by norm_num)
  have l2 : line (1, 1) (2, 3) (3 / 2) = 2 := by norm_num [line]
  have l4 : line (1, 1) (2, 2) (7 / 4) = 7 / 4 := by norm_num [line]
  have l5 : line (1, 5) (2, 7) (5 / 4) = 11 / 2 := by norm_num [line]
  rw [l2] at t2
  rw [l4] at t4
  rw [l5] at t5
  exact ⟨fun e => (t1.2 e).trans (single_table _ _ _), t2.2, fun e => (t3.2 e).trans (single_table _ _ _),
    t4.2, t5.2⟩

theorem drizzleData_sound : SoundContinuous drizzleData := by
  obtain ⟨t1, t2, t3, t4, t5⟩ := drizzle_tables
  refine ⟨?_, by norm_num [drizzleData], ?_⟩
  · intro r hr
    simp only [drizzleData, List.mem_cons, List.not_mem_nil, or_false] at hr
    rcases hr with rfl | rfl | rfl
    · exact ⟨fun e _ => ⟨_, t1 e, by norm_num⟩,
        by norm_num [ContinuousReaction.evaluation], by simp, by simp⟩
    · refine ⟨fun e _ => ⟨_, (t2 e).trans (pair_table _ _ _), pair_nonneg (by norm_num) (by norm_num)⟩,
        by norm_num [ContinuousReaction.evaluation], ?_, by simp⟩
      intro ev tsl awr h
      cases h
      exact ⟨rfl, by norm_num⟩
    · refine ⟨fun e _ => ⟨_, t3 e, by norm_num⟩,
        by norm_num [ContinuousReaction.evaluation], by simp, ?_⟩
      intro ev nubar h
      cases h
      exact ⟨_, rfl, fun e _ => ⟨_, (t4 e).trans (pair_table _ _ _), pair_nonneg (by norm_num) (by norm_num)⟩⟩
  · intro e _ v hv
    have h1 := hv (.capture ⟨[(1, 2), (5, 2)], 300⟩) (by simp [drizzleData])
    have h2 := hv (.scatter ⟨[(1, 1), (3 / 2, 2), (2, 3)], 300⟩ none 12) (by simp [drizzleData])
    have h3 := hv (.fission ⟨[(1 / 2, 2), (1, 2)], 350⟩ (some [(1, 1), (7 / 4, 7 / 4), (2, 2)]))
      (by simp [drizzleData])
    simp only [ContinuousReaction.evaluation, t1, t2, t3, pair_table, Except.ok.injEq] at h1 h2 h3
    simp only [drizzleData, t5, pair_table, List.map_cons, List.map_nil, List.sum_cons, List.sum_nil,
      ← h1, ← h2, ← h3]
    congr 1
    split_ifs <;> ring

theorem drizzle_cells (method : Method) (x : Point) :
    (x.x ^ 2 + x.y ^ 2 + x.z ^ 2 < 1 → FirstCell (drizzleProblem method).world x drizzleIn) ∧
    (1 ≤ x.x ^ 2 + x.y ^ 2 + x.z ^ 2 → FirstCell (drizzleProblem method).world x fogOut) := by
  have b1 := ball_contains 1 1 x
  norm_num at b1
  refine ⟨fun h => ⟨[], [fogOut], rfl, ?_, by simp⟩, fun h => ⟨[drizzleIn], [], rfl, ?_, ?_⟩⟩
  · simp [InCell, drizzleIn, b1, h]
  · simp [InCell, fogOut, ← Bool.not_eq_true, b1, h]
  · simp [InCell, drizzleIn, ← Bool.not_eq_true, b1, h]

theorem drizzle_world (method : Method) : GasWorld (fun _ => drizzleData) (drizzleProblem method).world := by
  have hcm : ∀ c ∈ (drizzleProblem method).world.cells, ∀ m, c.material = some m →
      m = drizzleGas ∧ c = drizzleIn := by
    intro c hc m hm
    simp only [drizzleProblem, List.mem_cons, List.not_mem_nil, or_false] at hc
    rcases hc with rfl | rfl
    · exact ⟨by simpa [drizzleIn] using hm.symm, rfl⟩
    · cases hm
  have hcm' : ∀ c ∈ (drizzleProblem method).world.cells, c.material ≠ none → c = drizzleIn := by
    intro c hc hm
    obtain ⟨m, hm⟩ := Option.ne_none_iff_exists'.1 hm
    exact (hcm c hc m hm).2
  have hx1 : ∀ x ∈ drizzleGas.afracs, x = (drizzleNuclide 1 "u1", 1 / 2) ∨
      x = (drizzleNuclide 2 "u2", 3 / 2) := by
    intro x hx
    simpa [drizzleGas] using hx
  refine ⟨⟨?_, ?_, ?_, ?_, ?_, ?_⟩, ?_, ?_, ?_⟩
  · intro x
    obtain ⟨h1, h2⟩ := drizzle_cells method x
    have key : ∃ c, FirstCell (drizzleProblem method).world x c := by
      rcases lt_or_ge (x.x ^ 2 + x.y ^ 2 + x.z ^ 2) 1 with h | h
      · exact ⟨_, h1 h⟩
      · exact ⟨_, h2 h⟩
    obtain ⟨c, l, r, e, hin, -⟩ := key
    exact ⟨c, by rw [e]; simp, hin⟩
  · intro c hc hm
    rw [hcm' c hc hm]
    simp [drizzleIn]
  · intro c hc m hm
    rw [(hcm c hc m hm).1]
    norm_num [drizzleGas]
  · intro c hc hm
    rw [hcm' c hc hm]
    norm_num [drizzleIn, ScalarField.upperBound]
  · intro c hc m hm x hx
    rw [(hcm c hc m hm).1] at hx
    rcases hx1 x hx with rfl | rfl
    · exact ⟨by norm_num, drizzleData, rfl, drizzleData_sound⟩
    · exact ⟨by norm_num, drizzleData, rfl, drizzleData_sound⟩
  · intro c hc m hm e _
    rw [(hcm c hc m hm).1]
    refine ⟨(drizzleNuclide 1 "u1", 1 / 2), by simp [drizzleGas], drizzleData, _, rfl,
      (drizzle_tables.2.2.2.2 e).trans (pair_table _ _ _), ?_⟩
    split_ifs with h1 h2
    · norm_num
    · rw [not_le] at h1
      linarith
    · norm_num
  · intro c hc m hm x hx
    rw [(hcm c hc m hm).1] at hx
    rcases hx1 x hx with rfl | rfl <;> rfl
  · intro c hc hm
    rw [hcm' c hc hm]
    exact ⟨600, by norm_num, rfl⟩
  · intro c hc m hm x hx r hr
    simp only [drizzleData, List.mem_cons, List.not_mem_nil, or_false] at hr
    rcases hr with rfl | rfl | rfl
    · exact ⟨by norm_num [Sorted, ContinuousReaction.evaluation],
        by norm_num [drizzleData, ContinuousReaction.evaluation], by simp⟩
    · exact ⟨by norm_num [Sorted, ContinuousReaction.evaluation],
        by norm_num [drizzleData, ContinuousReaction.evaluation], by simp⟩
    · refine ⟨by norm_num [Sorted, ContinuousReaction.evaluation],
        by norm_num [drizzleData, ContinuousReaction.evaluation], ?_⟩
      intro ev l h
      cases h
      norm_num [Sorted]

theorem drizzle_same (method : Method) : SameGases (fun _ => warmData) (fun _ => drizzleData)
    (warmProblem method).world (drizzleProblem method).world := by
  refine .cons ⟨⟨rfl, Or.inr ⟨warmGas, drizzleGas, rfl, rfl, 2, by norm_num,
      by norm_num [warmGas, drizzleGas], ?_⟩⟩,
    fun _ => rfl⟩ (.cons ⟨⟨rfl, Or.inl ⟨rfl, rfl⟩⟩, fun _ => rfl⟩ .nil)
  refine DividedAtoms.cons (x := (warmNuclide, 1)) (l := []) (l' := [])
    (parts := [(drizzleNuclide 1 "u1", 1 / 2), (drizzleNuclide 2 "u2", 3 / 2)]) ?_ (by norm_num) DividedAtoms.nil
  intro p hp
  simp only [List.mem_cons, List.not_mem_nil, or_false] at hp
  rcases hp with rfl | rfl
  · exact ⟨by norm_num, drizzle_xs _⟩
  · exact ⟨by norm_num, drizzle_xs _⟩

/-- A beam that leaves a ball of gas without a collision. -/
theorem beam_single {data : Nuclide → Continuous} {P : Problem} {c : Cell} {m : Material}
    (hw : GasWorld data P.world) (hmeth : P.method = .surfaceTracking)
    (hsrc : P.source = ⟨⟨0, 0, 0⟩, .constant ⟨1, 0, 0⟩, .continuous (3 / 2), .neutron⟩)
    (hpert : P.perturbations = []) {j : ℕ} (hseed : P.seed + j = 3)
    (hin : ∀ x : Point, x.x ^ 2 + x.y ^ 2 + x.z ^ 2 < 1 → FirstCell P.world x c)
    (hback : ∀ x : Point, 1 ≤ x.x ^ 2 + x.y ^ 2 + x.z ^ 2 → FirstCell P.world x fogOut)
    (hshape : c.surfaceSenses = [(ball 1 1, true)]) (hm : c.material = some m)
    (hrate : collisionRate data m (heat c) (3 / 2) = 1 / 2) : ∃ l, P.history 2 j = .ok [l] := by
  have hd : Configured P.source.direction := by
    rw [hsrc]
    norm_num [Configured, UnitVec]
  obtain ⟨n1, n2⟩ := warm_number
  have hcell := hin ⟨0, 0, 0⟩ (by norm_num)
  obtain ⟨b, b1, b2, b3, b4, b5, _⟩ := C51_source_particle P.source hd (P.seed + j)
  have b1' := b1
  rw [hsrc] at b2 b3 b4 b1'
  rw [hseed] at b1'
  have hbd : b.direction = ⟨1, 0, 0⟩ := by
    cases b1'
    rfl
  have hbr : Rng.ofSeed b.seed = 144813 := by
    cases b1'
    change Rng.ofSeed (Rng.next (Rng.ofSeed 3)) = _
    norm_num [Rng.ofSeed, Rng.next, Rng.modulus, Rng.mult]
  set p : Particle := (Particle.ofBorn b).setPerturbations P.perturbations with hp
  set p₀ : Particle := { p with cell := some c } with hp₀
  have hpp : p₀.position = ⟨0, 0, 0⟩ := b2
  have hpd : p₀.direction = ⟨1, 0, 0⟩ := hbd
  have hpr : p₀.rng = 144813 := hbr
  have hpe : p₀.energy = .continuous (3 / 2) := b3
  have hpc : p₀.cell = some c := rfl
  have hpt : p₀.type = .neutron := b4
  have hpi : p₀.indirectEffects = [] := by
    rw [hp₀, hp, hpert]
    rfl
  have hend : ¬ Ended p₀ := by
    simp [Ended, hp₀, hp, Particle.ofBorn, Particle.setPerturbations]
  -- the flight
  obtain ⟨-, -, hD⟩ := gas_material hw (FirstCell.mem hcell).1 hm hpc hpt hpe
    (by norm_num)
  have hden := hD .surfaceTracking
  have hmac : m.numberDensity * (m.afracs.map fun x => x.2 *
      nuclideXS (data x.1) (heat c) (3 / 2)).sum = 1 / 2 := hrate
  set f := -Real.log (1 - (Rng.canonical p₀.rng).1) / (1 / 2) with hfdef
  have hfl : sampleFlight .surfaceTracking p₀ =
      .ok ((f : WithTop ℝ), { p₀ with rng := (Rng.canonical p₀.rng).2 }) := by
    have hgc : p₀.getCell = .ok c := Particle.getCell_ok.2 hpc
    unfold sampleFlight
    rw [hgc]
    simp only [bind, Except.bind, hm, hden, hmac]
    unfold Rng.exponential Rng.exponentialOf
    rw [if_neg (by norm_num)]
  have hlong : 1 < f := by
    rw [hfdef, hpr, lt_div_iff₀ (by norm_num), lt_neg, Real.log_lt_iff_lt_exp (by linarith)]
    have h3 := Real.add_one_lt_exp (x := -(1 / 2)) (by norm_num)
    linarith
  have hdist : (ball 1 1).shape.distance p₀.position p₀.direction = ((1 : ℝ) : WithTop ℝ) := by
    rw [hpp, hpd, ball_ahead 1 le_rfl one_pos, sub_zero]
  have hns : c.nearestSurface p₀.position p₀.direction = .ok (ball 1 1, ((1 : ℝ) : WithTop ℝ)) := by
    rw [← hdist]
    unfold Cell.nearestSurface
    rw [hshape]
    rfl
  have hout := fog_leaves (x := p₀.position) (d := p₀.direction) (by rw [hpp]; norm_num)
    (by rw [hpd]; norm_num [UnitVec]) hdist
  have hfirst := hback _ hout
  obtain ⟨l, k⟩ : ∃ l, crossSurface .surfaceTracking P.world
      { p₀ with rng := (Rng.canonical p₀.rng).2 } (ball 1 1) ((1 : ℝ) : WithTop ℝ) = .ok l := by
    rw [← nudge_eq] at hfirst
    have hfind : P.world.findCellContaining (along p₀.position p₀.direction (1 + nudge)) = .ok fogOut :=
      findCellContaining_ok.2 hfirst
    have hs : Particle.stream .surfaceTracking { p₀ with rng := (Rng.canonical p₀.rng).2 }
        (((1 : ℝ) : WithTop ℝ) + (nudge : WithTop ℝ)) = .ok { p₀ with
          rng := (Rng.canonical p₀.rng).2
          position := along p₀.position p₀.direction (1 + nudge) } := by
      rw [← WithTop.coe_add, ← smul_eq_along]
      unfold Particle.stream
      rw [hpi]
      rfl
    unfold crossSurface
    rw [hs]
    simp only [bind, Except.bind, Particle.locate, hfind, Particle.getCell]
    exact ⟨_, rfl⟩
  have hstep : transportStep .surfaceTracking 2 P.world p₀ = .ok l := by
    change surfaceStep 2 P.world p₀ = .ok l
    unfold surfaceStep
    rw [hfl]
    have hgc : Particle.getCell { p₀ with rng := (Rng.canonical p₀.rng).2 } = .ok c :=
      Particle.getCell_ok.2 hpc
    simp only [bind, Except.bind, hgc, hns]
    rw [if_neg (not_lt.2 (WithTop.coe_le_coe.2 hlong.le))]
    exact k
  obtain ⟨t, e0, e1, ⟨c', e2, e3, e4, e5⟩, e10, e6, e7, e8, e11, e9⟩ := crossSurface_ok k
  cases WithTop.coe_injective e0
  have hleak : l.event = .leak := by
    refine e4 ?_
    rw [e1] at e2
    rw [firstCell_unique e2 hfirst]
    rfl
  have hsec : l.secondaries = [] := e11
  have htr : transport P.method 2 P.world p = .ok (l, [l]) := by
    have hna : ¬ l.isAlive = true := fun hal => (alive_iff l).1 hal (.inr (.inr hleak))
    unfold transport
    rw [(locate_ok.2 ⟨_, (hpp ▸ hcell : FirstCell P.world p₀.position _), rfl⟩ :
      p.locate P.world = .ok p₀)]
    simp only [bind, Except.bind]
    rw [hmeth]
    change noexcept (transportLoop .surfaceTracking 2 P.world 2 p₀) = _
    rw [transportLoop, if_pos ((alive_iff _).2 hend), hstep]
    simp only [bind, Except.bind]
    rw [transportLoop, if_neg hna]
    rfl
  have hhist : P.history 2 j = .ok [l] := by
    unfold Problem.history
    rw [b1]
    simp only [bind, Except.bind]
    have e := processBank_concat (run := transport P.method 2 P.world) (qs := P.perturbations) 1 []
      (Particle.ofBorn b)
    rw [List.nil_append, ← hp, htr] at e
    simp only [bind, Except.bind] at e
    rw [hsec, List.map_nil, List.nil_append, processBank_nil] at e
    rw [e]
    rfl
  exact ⟨_, hhist⟩

theorem beam_history {data : Nuclide → Continuous} {P : Problem} {c : Cell} {m : Material}
    (hw : GasWorld data P.world) (hmeth : P.method = .surfaceTracking)
    (hsrc : P.source = ⟨⟨0, 0, 0⟩, .constant ⟨1, 0, 0⟩, .continuous (3 / 2), .neutron⟩)
    (hpert : P.perturbations = []) {j : ℕ} (hseed : P.seed + j = 3)
    (hin : ∀ x : Point, x.x ^ 2 + x.y ^ 2 + x.z ^ 2 < 1 → FirstCell P.world x c)
    (hback : ∀ x : Point, 1 ≤ x.x ^ 2 + x.y ^ 2 + x.z ^ 2 → FirstCell P.world x fogOut)
    (hshape : c.surfaceSenses = [(ball 1 1, true)]) (hm : c.material = some m)
    (hrate : collisionRate data m (heat c) (3 / 2) = 1 / 2) : ∃ states, P.history 2 j = .ok states :=
  let ⟨l, h⟩ := beam_single hw hmeth hsrc hpert hseed hin hback hshape hm hrate
  ⟨[l], h⟩

theorem drizzle_rate : collisionRate (fun _ => drizzleData) drizzleGas (heat drizzleIn) (3 / 2) = 1 / 2 := by
  have h := drizzle_same .surfaceTracking
  cases h with
  | cons h1 _ =>
    rcases h1.matter.material with ⟨k, -⟩ | ⟨m, m', k1, k2, hm⟩
    · cases k
    · cases k1
      cases k2
      exact (divided_collisionRate hm (by norm_num)).trans warm_rate

theorem drizzle_task (method : Method) : SameTask (warmProblem method) (drizzleProblem method) :=
  ⟨rfl, rfl, rfl, rfl, rfl⟩

/-- Instance of `C104_history`: history two exists in both problems, and the neutron leaves the ball without
a collision in both. -/
example : ∃ states', (drizzleProblem .surfaceTracking).history 2 2 = .ok states' ∧
    crossings (ball 1 1) oneBin states' 0 = 1 := by
  obtain ⟨-, -, -, states, h1, -, -, h2, -⟩ := warm_history
  obtain ⟨states', h3⟩ := beam_history (P := drizzleProblem .surfaceTracking) (j := 2)
    (drizzle_world .surfaceTracking) rfl rfl rfl rfl (fun x => (drizzle_cells .surfaceTracking x).1)
    (fun x => (drizzle_cells .surfaceTracking x).2) rfl rfl drizzle_rate
  refine ⟨states', h3, Eq.trans ?_ h2⟩
  exact C104_history (drizzle_task _) (warm_world _) (drizzle_world _) (drizzle_same _)
    ⟨rfl, ⟨3 / 2, rfl, by norm_num⟩, _, (warm_cells _ ⟨0, 0, 0⟩).1 (by norm_num), by simp [warmIn]⟩
    (by norm_num [warmProblem, Configured, UnitVec]) h1 h3 _ _ _

/-- The run `warmRun`, written in another way. -/
noncomputable def drizzleRun : Problem :=
  { drizzleProblem .surfaceTracking with
    seed := 3
    batchsize := 1
    init := warmRun.init }

/-- Instance of `C104_result`: runs of both problems have results, and they print the same. -/
example : ∃ r k r' k', SolveResult warmRun 2 0 r k ∧ SolveResult drizzleRun 2 0 r' k' ∧
    r.estimators ≠ [] ∧ r'.estimators.map (fun o => o.base.means warmRun.batchsize) =
      r.estimators.map fun o => o.base.means warmRun.batchsize := by
  obtain ⟨r, k, h⟩ := warmRun_result
  obtain ⟨r', k', h'⟩ := single_result (P := drizzleRun) rfl rfl (beam_history (P := drizzleRun) (j := 0)
    (drizzle_world .surfaceTracking) rfl rfl rfl rfl (fun x => (drizzle_cells .surfaceTracking x).1)
    (fun x => (drizzle_cells .surfaceTracking x).2) rfl rfl drizzle_rate)
  refine ⟨r, k, r', k', h, h', ?_, ?_⟩
  · obtain ⟨_, _, _, key⟩ := C101_printed
    obtain ⟨_, _, _, _, _, _, _, _, h4⟩ := key (data := fun _ => warmData) (P := warmRun)
      (warm_world .surfaceTracking) ⟨rfl, ⟨3 / 2, rfl, by norm_num⟩, _,
        (warm_cells .surfaceTracking ⟨0, 0, 0⟩).1 (by norm_num), by simp [warmIn]⟩
      (by norm_num [warmRun, warmProblem, Configured, UnitVec]) warmRun_fresh
      (by norm_num [warmRun, warmProblem, slabProblem]) (by norm_num [warmRun]) h
    intro hn
    have := h4.length_eq
    rw [hn] at this
    cases this
  · have key := C104_result (P := warmRun) (P' := drizzleRun) ⟨rfl, rfl, rfl, rfl, rfl⟩
      (warm_world .surfaceTracking) (drizzle_world .surfaceTracking) (drizzle_same .surfaceTracking)
      ⟨rfl, ⟨3 / 2, rfl, by norm_num⟩, _, (warm_cells .surfaceTracking ⟨0, 0, 0⟩).1 (by norm_num),
        by simp [warmIn]⟩
      (by norm_num [warmRun, warmProblem, Configured, UnitVec]) warmRun_fresh
      (by norm_num [warmRun, warmProblem, slabProblem])
      (by norm_num [drizzleRun, drizzleProblem]) (by norm_num [warmRun]) h h'
    generalize r.estimators = l at key ⊢
    generalize r'.estimators = l' at key ⊢
    induction key with
    | nil => rfl
    | cons h1 _ ih => rw [List.map_cons, List.map_cons, ih, h1.2.1]

end Minimc.Props
