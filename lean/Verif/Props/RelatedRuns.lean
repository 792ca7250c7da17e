import Verif.Props.Joint
import Verif.Props.Drizzle
import Verif.Props.Refine

/-!
# Runs of related problems

Instances of the theorems about results of related problems (C99 to C102): pairs of runs that have
results.
-/

open MeasureTheory ENNReal

namespace Minimc.Props

open Minimc.Spec

/-- A run in a world like that of `shellProblem`, from the centre of the ball, has a result. -/
theorem absorber_result {P : Problem} {G : ℕ} {nodes : Nuclide → List MgNode} (hw : WellPosed G nodes P.world)
    (ha : Absorbing G nodes P.world) (hb : MaterialWithin 2 P.world) (hs : GroupSource G P.world P.source)
    (hd : Configured P.source.direction) (hinit : FreshSet P.init)
    (hall : ∀ x ∈ P.init.estimators, x.sensitivities = [] ∧
      ∀ d e, ∃ i, x.base.bins.getIndex d e = .ok i) :
    ∃ r k, SolveResult P (2 ^ 52) 0 r k := by
  refine C32_result_exists hinit fun e _ => ?_
  obtain ⟨b, states, -, h2, -⟩ := C69_straight hw ha (by norm_num) hb hs hd (fuel := 2 ^ 52)
    (by norm_num) e
  refine ⟨states, h2, fun p _ => ⟨fun x hx _ => (hall x hx).2 _ _, ?_, ?_⟩⟩
  · intro x hx q hq
    rw [(hall x hx).1] at hq
    cases hq
  · intro x hx q hq
    rw [(hall x hx).1] at hq
    cases hq

/-- Six bins on the outer sphere. -/
noncomputable def shellTally : EstimatorSet :=
  ⟨[⟨⟨"out", sixBins, List.replicate 6 0, List.replicate 6 0⟩, ball 2 2, []⟩], 1000⟩

theorem shellTally_fresh : FreshSet shellTally := by
  refine ⟨⟨?_, ?_, ?_, ?_⟩, ⟨?_, ?_⟩, ?_⟩
  · intro e he e' he' _
    rw [List.mem_singleton.1 he, List.mem_singleton.1 he']
  · intro e he q hq
    rw [List.mem_singleton.1 he] at hq
    cases hq
  · intro e he
    rw [List.mem_singleton.1 he]
    exact ⟨rfl, rfl⟩
  · intro e he q hq
    rw [List.mem_singleton.1 he] at hq
    cases hq
  · intro e he
    rw [List.mem_singleton.1 he]
    exact sixBins_created
  · intro e he q hq
    rw [List.mem_singleton.1 he] at hq
    cases hq
  · rfl

/-- A thousand histories of a beam through absorbers. -/
noncomputable def plainRun (method : Method) : Problem :=
  { shellProblem method with init := shellTally }

theorem plain_absorbing (method : Method) :
    Absorbing 1 (fun _ => [.capture [1]]) (plainRun method).world := by
  intro c _ m _ e _ g h1 h2
  simp [specXS, nodeXS]

theorem plain_within (method : Method) : MaterialWithin 2 (plainRun method).world := by
  intro x c hc hm
  by_contra hlt
  exact hm (firstCell_unique hc ((shell_cells method x).2.2 (by linarith)) ▸ rfl)

theorem plain_source (method : Method) : GroupSource 1 (plainRun method).world (plainRun method).source :=
  ⟨rfl, ⟨1, rfl, le_rfl, le_rfl⟩, innerCell,
    (shell_cells method _).1 (by norm_num [plainRun, shellProblem]), by simp [innerCell]⟩

theorem plain_configured (method : Method) : Configured (plainRun method).source.direction := by
  norm_num [plainRun, shellProblem, Configured, UnitVec]

theorem plain_result (method : Method) : ∃ r k, SolveResult (plainRun method) (2 ^ 52) 0 r k := by
  refine absorber_result (P := plainRun method) (nodes := fun _ => [.capture [1]]) (shell_wellPosed method)
    (plain_absorbing method) (plain_within method) (plain_source method) (plain_configured method)
    shellTally_fresh ?_
  intro x hx
  rw [List.mem_singleton.1 hx]
  exact ⟨rfl, fun d e => ⟨_, rfl⟩⟩

/-! ### Turned -/

/-- The mirror that takes the x axis to `⟨3 / 5, 4 / 5, 0⟩`. -/
noncomputable def oblique : Point → Point := mirrored (⟨1, 0, 0⟩ - ⟨3 / 5, 4 / 5, 0⟩)

theorem oblique_rigid : Rigid oblique ∧ oblique ⟨1, 0, 0⟩ = ⟨3 / 5, 4 / 5, 0⟩ := by
  have ux : UnitVec ⟨1, 0, 0⟩ := by unfold UnitVec; norm_num
  have ur : UnitVec ⟨3 / 5, 4 / 5, 0⟩ := by unfold UnitVec; norm_num
  obtain ⟨h0, hm⟩ := mirrored_across ux ur (by
    intro h
    have := congrArg Point.x h
    norm_num at this)
  exact ⟨C99_mirror h0, hm⟩

/-- The run turned, with another seed, tracking method and number of threads. -/
noncomputable def obliqueRun : Problem :=
  { plainRun .cellDeltaTracking with
    source := turnSource oblique (plainRun .surfaceTracking).source
    init := turnSet oblique shellTally
    seed := 5
    threads := 3 }

theorem oblique_turned : Turned oblique (plainRun .surfaceTracking) obliqueRun := by
  refine ⟨?_, rfl, rfl, rfl⟩
  refine (around_turn oblique_rigid.1 (w := (plainRun .surfaceTracking).world) ⟨?_, ?_, ?_, ⟨300, rfl⟩⟩).symm
  · intro s hs
    simp only [plainRun, shellProblem, List.mem_cons, List.not_mem_nil, or_false] at hs
    rcases hs with rfl | rfl <;> exact ⟨_, rfl⟩
  · intro c hc e he
    simp only [plainRun, shellProblem, List.mem_cons, List.not_mem_nil, or_false] at hc
    rcases hc with rfl | rfl | rfl
    · simp only [innerCell, List.mem_cons, List.not_mem_nil, or_false] at he
      subst he
      exact ⟨_, rfl⟩
    · simp only [shellCell, List.mem_cons, List.not_mem_nil, or_false] at he
      rcases he with rfl | rfl <;> exact ⟨_, rfl⟩
    · simp only [outerCell, List.mem_cons, List.not_mem_nil, or_false] at he
      subst he
      exact ⟨_, rfl⟩
  · intro c hc
    simp only [plainRun, shellProblem, List.mem_cons, List.not_mem_nil, or_false] at hc
    rcases hc with rfl | rfl | rfl <;> exact ⟨300, rfl⟩

theorem plain_canTurn (method : Method) (R : Point → Point) :
    ∀ c ∈ (plainRun method).world.cells, CanTurn R c := by
  intro c hc
  refine Or.inr fun e he => ?_
  simp only [plainRun, shellProblem, List.mem_cons, List.not_mem_nil, or_false] at hc
  rcases hc with rfl | rfl | rfl
  · simp only [innerCell, List.mem_cons, List.not_mem_nil, or_false] at he
    subst he
    exact ⟨_, _, rfl⟩
  · simp only [shellCell, List.mem_cons, List.not_mem_nil, or_false] at he
    rcases he with rfl | rfl <;> exact ⟨_, _, rfl⟩
  · simp only [outerCell, List.mem_cons, List.not_mem_nil, or_false] at he
    subst he
    exact ⟨_, _, rfl⟩

theorem oblique_result : ∃ r k, SolveResult obliqueRun (2 ^ 52) 0 r k := by
  obtain ⟨-, hs, hd, -⟩ := C99_problem (G := 1) (nodes := fun _ => [.capture [1]]) oblique_rigid.1 oblique_turned
    (shell_wellPosed .surfaceTracking) (plain_source .surfaceTracking) (plain_configured .surfaceTracking)
    (plain_canTurn .surfaceTracking oblique)
  refine absorber_result (P := obliqueRun) (nodes := fun _ => [.capture [1]])
    (shell_wellPosed .cellDeltaTracking) (plain_absorbing .cellDeltaTracking)
    (plain_within .cellDeltaTracking) hs hd (turn_fresh oblique shellTally_fresh) ?_
  intro x hx
  rw [List.mem_singleton.1 hx]
  exact ⟨rfl, fun d e => ⟨_, rfl⟩⟩

/-- Instance of `C99_result`: both runs have results, and what they print for each of the six bins are means
of scores that are distributed alike. -/
example : ∃ r k r' k' q q', SolveResult (plainRun .surfaceTracking) (2 ^ 52) 0 r k ∧
    SolveResult obliqueRun (2 ^ 52) 0 r' k' ∧ r.estimators[0]? = some q ∧ r'.estimators[0]? = some q' ∧
    ∃ (f f' : ∀ {σ : Type}, Supply σ → ℕ → σ → ℝ≥0∞), ∀ i < 6,
      SameLaw (f endless i) (f' endless i) ∧
      (q.base.means 1000)[i]? = some (.ok (mean (sample (fun k =>
        (f generator i (Rng.ofSeed (1 + k))).toReal) 1000))) ∧
      (q'.base.means 1000)[i]? = some (.ok (mean (sample (fun k =>
        (f' generator i (Rng.ofSeed (5 + k))).toReal) 1000))) := by
  obtain ⟨r, k, h⟩ := plain_result .surfaceTracking
  obtain ⟨r', k', h'⟩ := oblique_result
  obtain ⟨a, b, a', b', c, g, -, -, key⟩ := C99_result (G := 1) (nodes := fun _ => [.capture [1]])
    oblique_rigid.1 oblique_turned
    (shell_wellPosed .surfaceTracking) (plain_source .surfaceTracking) (plain_configured .surfaceTracking)
    (plain_canTurn .surfaceTracking oblique) shellTally_fresh
    (by norm_num [plainRun, shellProblem, slabProblem]) (by norm_num [obliqueRun])
    (by norm_num [plainRun, shellProblem, slabProblem]) h h'
  obtain ⟨q, q', e1, e2, -, -, hk⟩ := key 0 _ rfl
  refine ⟨r, k, r', k', q, q', h, h', e1, e2,
    fun S i => played S 1 (fun _ => [.capture [1]]) (plainRun .surfaceTracking)
      (currentHit (ball 2 2) sixBins i) a b c g,
    fun S i => played S 1 (fun _ => [.capture [1]]) obliqueRun
      (currentHit (turnSurface oblique (ball 2 2)) (turnBins oblique sixBins) i) a' b' (turnCell oblique c) g,
    fun i hi => ?_⟩
  obtain ⟨h1, -, h3, -, h5⟩ := hk i hi
  exact ⟨h5, h1, h3⟩

/-- Instance of `C102_turned_result`: all entries of the tables of both runs. -/
example : ∃ r k r' k', SolveResult (plainRun .surfaceTracking) (2 ^ 52) 0 r k ∧
    SolveResult obliqueRun (2 ^ 52) 0 r' k' ∧
    ∃ (f f' : ∀ {σ : Type}, Supply σ → Entry → σ → ℝ≥0∞),
      Prints (plainRun .surfaceTracking) r (fun o seed => f generator o (Rng.ofSeed seed)) ∧
      Prints obliqueRun r' (fun o seed => f' generator o (Rng.ofSeed seed)) ∧
      SameJoint (fun i : Fin 6 => f endless ⟨ball 2 2, sixBins, i⟩)
        fun i : Fin 6 => f' endless (turnEntry oblique ⟨ball 2 2, sixBins, i⟩) := by
  obtain ⟨r, k, h⟩ := plain_result .surfaceTracking
  obtain ⟨r', k', h'⟩ := oblique_result
  obtain ⟨a, b, a', b', c, g, -, -, h1, h2, h3⟩ := C102_turned_result (G := 1)
    (nodes := fun _ => [.capture [1]]) oblique_rigid.1 oblique_turned
    (shell_wellPosed .surfaceTracking) (plain_source .surfaceTracking) (plain_configured .surfaceTracking)
    (plain_canTurn .surfaceTracking oblique) shellTally_fresh
    (by norm_num [plainRun, shellProblem, slabProblem]) (by norm_num [obliqueRun])
    (by norm_num [plainRun, shellProblem, slabProblem]) h h'
  exact ⟨r, k, r', k', h, h',
    fun S o => played S 1 (fun _ => [.capture [1]]) (plainRun .surfaceTracking)
      (currentHit o.surface o.bins o.index) a b c g,
    fun S o => played S 1 (fun _ => [.capture [1]]) obliqueRun
      (currentHit o.surface o.bins o.index) a' b' (turnCell oblique c) g,
    h1, h2, h3 (Fin 6) fun i => ⟨ball 2 2, sixBins, i⟩⟩

/-! ### Mixtures -/

/-- The absorber as a mixture of two nuclides. -/
noncomputable def blend : Material :=
  ⟨"blend", [(absorber 8 "b" 1, 1 / 2), (absorber 9 "c" 1, 3 / 2)], (absorbing 1).numberDensity / 2⟩

/-- The beam through another material, on other threads. -/
noncomputable def refilledRun (m : Material) (method : Method) : Problem :=
  { plainRun method with
    world := ⟨[ball 1 1, ball 2 2], m.afracs.map Prod.fst, [m], .constant 600,
      [{ innerCell with material := some m }, { shellCell with material := some m }, outerCell]⟩
    threads := 3 }

theorem refilled_material {m m' : Material} {method : Method} {c : Cell}
    (hc : c ∈ (refilledRun m method).world.cells) (hm : c.material = some m') : m' = m := by
  simp only [refilledRun, List.mem_cons, List.not_mem_nil, or_false] at hc
  rcases hc with rfl | rfl | rfl
  · exact (Option.some.inj hm).symm
  · exact (Option.some.inj hm).symm
  · cases hm

theorem refilled_alike {Q : Material → Material → Prop} {m : Material} (h : Q (absorbing 1) m)
    (method method' : Method) : WorldsAlike Q (plainRun method).world (refilledRun m method').world :=
  .cons ⟨rfl, Or.inr ⟨_, _, rfl, rfl, h⟩⟩ (.cons ⟨rfl, Or.inr ⟨_, _, rfl, rfl, h⟩⟩
    (.cons ⟨rfl, Or.inl ⟨rfl, rfl⟩⟩ .nil))

theorem refilled_within (m : Material) (method : Method) : MaterialWithin 2 (refilledRun m method).world := by
  intro x c hc hm
  by_contra hlt
  obtain ⟨l, r, e, hin, -⟩ := hc
  have hc : c ∈ (refilledRun m method).world.cells := by
    rw [e]
    simp
  have b1 := ball_contains 1 1 x
  have b2 := ball_contains 2 2 x
  norm_num at b1 b2
  simp only [refilledRun, List.mem_cons, List.not_mem_nil, or_false] at hc
  rcases hc with rfl | rfl | rfl
  · have := b1.1 (hin (ball 1 1, true) (by simp [innerCell]))
    linarith
  · have := b2.1 (hin (ball 2 2, true) (by simp [shellCell]))
    linarith
  · exact hm rfl

theorem refilled_result {m : Material} {nodes : Nuclide → List MgNode} {method : Method}
    (hw : WellPosed 1 nodes (refilledRun m method).world)
    (ha : Absorbing 1 nodes (refilledRun m method).world) :
    ∃ r k, SolveResult (refilledRun m method) (2 ^ 52) 0 r k := by
  refine absorber_result hw ha (refilled_within m method)
    (alike_groupSource (refilled_alike (Q := fun _ _ => True) trivial method method) (plain_source method))
    (plain_configured method) shellTally_fresh ?_
  intro x hx
  rw [List.mem_singleton.1 hx]
  exact ⟨rfl, fun d e => ⟨_, rfl⟩⟩

theorem blend_divided : DividedMaterial (fun _ => [.capture [1]]) (fun _ => [.capture [1]]) (absorbing 1)
    blend := by
  refine ⟨2, by norm_num, by simp [blend], ?_⟩
  have := Divided.cons (nodes := fun _ => [MgNode.capture [1]]) (nodes' := fun _ => [MgNode.capture [1]])
    (factor := 2) (e := (absorber 7 "a" 1, 1)) (parts := [(absorber 8 "b" 1, 1 / 2), (absorber 9 "c" 1, 3 / 2)])
    (by
      intro p hp
      simp only [List.mem_cons, List.not_mem_nil, or_false] at hp
      rcases hp with rfl | rfl <;> norm_num)
    (by norm_num) Divided.nil
  exact this

theorem blend_alike (method method' : Method) :
    WorldsAlike (DividedMaterial (fun _ => [.capture [1]]) (fun _ => [.capture [1]]))
      (plainRun method).world (refilledRun blend method').world :=
  refilled_alike blend_divided method method'

theorem blend_wellPosed (method : Method) :
    WellPosed 1 (fun _ => [.capture [1]]) (refilledRun blend method).world := by
  refine C100_well_posed (shell_wellPosed method) (blend_alike method method) ?_
  intro c hc m hm e he
  rw [refilled_material hc hm] at he
  simp only [blend, List.mem_cons, List.not_mem_nil, or_false] at he
  rcases he with rfl | rfl
  · exact ⟨by norm_num, absorber_data rfl _ _⟩
  · exact ⟨by norm_num, absorber_data rfl _ _⟩

theorem blend_result (method : Method) : ∃ r k, SolveResult (refilledRun blend method) (2 ^ 52) 0 r k :=
  refilled_result (blend_wellPosed method) (by
    intro c _ m _ e _ g h1 h2
    simp [specXS, nodeXS])

/-- Instance of `C100_result` and of `C102_mixture_result`: both runs have results and print the same; with
another tracking method, tables are distributed alike. -/
example (method method' : Method) : ∃ r k r' k' r'' k'', SolveResult (plainRun method) (2 ^ 52) 0 r k ∧
    SolveResult (refilledRun blend method) (2 ^ 52) 0 r' k' ∧ SolveResult (refilledRun blend method') (2 ^ 52) 0 r'' k'' ∧
    List.Forall₂ (fun o o' : Estimator => o'.base.name = o.base.name ∧
      o'.base.means 1000 = o.base.means 1000 ∧ o'.base.stdDevs 1000 = o.base.stdDevs 1000)
      r.estimators r'.estimators ∧
    ∃ (f f' : ∀ {σ : Type}, Supply σ → Entry → σ → ℝ≥0∞),
      Prints (plainRun method) r (fun o seed => f generator o (Rng.ofSeed seed)) ∧
      Prints (refilledRun blend method') r'' (fun o seed => f' generator o (Rng.ofSeed seed)) ∧
      SameJoint (fun i : Fin 6 => f endless ⟨ball 2 2, sixBins, i⟩)
        fun i : Fin 6 => f' endless ⟨ball 2 2, sixBins, i⟩ := by
  obtain ⟨r, k, h⟩ := plain_result method
  obtain ⟨r', k', h'⟩ := blend_result method
  obtain ⟨r'', k'', h''⟩ := blend_result method'
  obtain ⟨a, b, a', b', c, c', g, -, -, h1, h2, h3⟩ := C102_mixture_result (G := 1) (P := plainRun method)
    (P' := refilledRun blend method') (nodes := fun _ => [.capture [1]]) (nodes' := fun _ => [.capture [1]]) rfl rfl rfl
    (shell_wellPosed method) (blend_wellPosed method')
    ((blend_alike method method').imp fun _ _ h => ⟨h.shape, h.material.imp id fun ⟨m, m', e1, e2, h⟩ =>
      ⟨m, m', e1, e2, C100_divided_amounts h⟩⟩)
    (plain_source method) (plain_configured method) shellTally_fresh
    (by norm_num [plainRun, shellProblem, slabProblem]) (by norm_num [refilledRun])
    (by norm_num [plainRun, shellProblem, slabProblem]) h h''
  refine ⟨r, k, r', k', r'', k'', h, h', h'', ?_,
    fun S o => played S 1 (fun _ => [.capture [1]]) (plainRun method)
      (currentHit o.surface o.bins o.index) a b c g,
    fun S o => played S 1 (fun _ => [.capture [1]]) (refilledRun blend method')
      (currentHit o.surface o.bins o.index) a' b' c' g,
    h1, h2, h3 (Fin 6) fun i => ⟨ball 2 2, sixBins, i⟩⟩
  exact C100_result (G := 1) (P := plainRun method)
    (P' := refilledRun blend method) (nodes := fun _ => [.capture [1]]) (nodes' := fun _ => [.capture [1]])
    ⟨rfl, rfl, rfl, rfl, rfl⟩ (shell_wellPosed method) (blend_wellPosed method) (blend_alike method method)
    (plain_source method) (plain_configured method) shellTally_fresh
    (by norm_num [plainRun, shellProblem, slabProblem]) (by norm_num [refilledRun])
    (by norm_num [plainRun, shellProblem, slabProblem]) h h'

/-! ### Gases -/

/-- A mirror that leaves the beam alone. -/
noncomputable def upsideDown : Point → Point := mirrored ⟨0, 1, 0⟩

theorem upsideDown_rigid : Rigid upsideDown ∧ upsideDown ⟨1, 0, 0⟩ = ⟨1, 0, 0⟩ := by
  refine ⟨C99_mirror (by norm_num [cosAngle]), ?_⟩
  norm_num [upsideDown, mirrored, along, cosAngle]

/-- The history of `warmRun` in the gas that is written in another way, on other threads. -/
noncomputable def mistRun : Problem :=
  { mistProblem ⟨1, 0, 0⟩ .surfaceTracking with
    seed := 3
    batchsize := 1
    threads := 5
    init := warmRun.init }

theorem mist_same : SameGas (fun _ => warmData) (fun _ => warmData) warmGas mist := by
  intro rs
  unfold gasAmount
  by_cases e : warmData.reactions = rs
  · simp [e, warmGas, mist]
    norm_num
  · simp [e, warmGas, mist]

theorem mist_cells (x : Point) :
    (x.x ^ 2 + x.y ^ 2 + x.z ^ 2 < 1 → FirstCell mistRun.world x mistIn) ∧
    (1 ≤ x.x ^ 2 + x.y ^ 2 + x.z ^ 2 → FirstCell mistRun.world x fogOut) := by
  have b1 := ball_contains 1 1 x
  norm_num at b1
  refine ⟨fun h => ⟨[], [fogOut], rfl, ?_, by simp⟩, fun h => ⟨[mistIn], [], rfl, ?_, ?_⟩⟩
  · simp [InCell, mistIn, b1, h]
  · simp [InCell, fogOut, ← Bool.not_eq_true, b1, h]
  · intro c hc hin
    rw [List.mem_singleton.1 hc] at hin
    have := b1.1 (hin (ball 1 1, true) (by simp [mistIn]))
    linarith

theorem mist_result : ∃ r k, SolveResult mistRun 2 0 r k :=
  single_result (P := mistRun) rfl rfl (beam_history (P := mistRun) (j := 0) (c := mistIn) (m := mist)
    (mist_world ⟨1, 0, 0⟩ .surfaceTracking) rfl rfl rfl rfl (fun x => (mist_cells x).1) (fun x => (mist_cells x).2) rfl rfl
    ((same_collisionRate mist_same (reacting (warm_world .surfaceTracking) (c := warmIn)
        (by simp [warmProblem]) rfl (by norm_num)) (reacting (mist_world ⟨1, 0, 0⟩ .surfaceTracking)
        (c := mistIn) (by simp [mistProblem]) rfl (by norm_num))).trans warm_rate))

theorem mist_turned : TurnedTask upsideDown warmRun mistRun := by
  obtain ⟨hR, hx⟩ := upsideDown_rigid
  refine ⟨?_, ?_, rfl⟩
  · change _ = (⟨upsideDown ⟨0, 0, 0⟩, .constant (upsideDown ⟨1, 0, 0⟩), .continuous (3 / 2), .neutron⟩ : Source)
    rw [rigid_zero hR, hx]
    rfl
  · have hsurf : turnSurface upsideDown (ball 1 1) = ball 1 1 := by
      unfold turnSurface turnShape ball
      dsimp only
      rw [rigid_zero hR]
    change warmRun.init = _
    simp [turnSet, turnEstimator, turnScorable, turnBins, warmRun, hsurf, oneBin]

theorem mist_alike : GasesAlike upsideDown (fun _ => warmData) (fun _ => warmData) warmRun.world
    mistRun.world := by
  have hsurf : turnSurface upsideDown (ball 1 1) = ball 1 1 := by
    unfold turnSurface turnShape ball
    dsimp only
    rw [rigid_zero upsideDown_rigid.1]
  refine .cons ⟨⟨?_, Or.inr ⟨_, _, rfl, rfl, mist_same⟩⟩, fun _ => rfl⟩
    (.cons ⟨⟨?_, Or.inl ⟨rfl, rfl⟩⟩, fun _ => rfl⟩ .nil)
  · simp [turnCell, mistIn, warmIn, hsurf]
  · simp [turnCell, fogOut, hsurf]

/-- Instance of `C101_result` and of `C102_gases_result`: both runs have results. -/
example : ∃ r k r' k' q q', SolveResult warmRun 2 0 r k ∧ SolveResult mistRun 2 0 r' k' ∧
    r.estimators[0]? = some q ∧ r'.estimators[0]? = some q' ∧
    (∃ (f f' : ∀ {σ : Type}, Supply σ → σ → ℝ≥0∞), SameLaw (f endless) (f' endless) ∧
      (q.base.means warmRun.batchsize)[0]? = some (.ok (mean (sample (fun k =>
        (f generator (Rng.ofSeed (3 + k))).toReal) warmRun.batchsize))) ∧
      (q'.base.means warmRun.batchsize)[0]? = some (.ok (mean (sample (fun k =>
        (f' generator (Rng.ofSeed (3 + k))).toReal) warmRun.batchsize)))) ∧
    ∃ (f f' : ∀ {σ : Type}, Supply σ → Entry → σ → ℝ≥0∞),
      Prints warmRun r (fun o seed => f generator o (Rng.ofSeed seed)) ∧
      Prints mistRun r' (fun o seed => f' generator o (Rng.ofSeed seed)) ∧
      SameJoint (fun _ : Fin 1 => f endless ⟨ball 1 1, oneBin, 0⟩)
        fun _ : Fin 1 => f' endless (turnEntry upsideDown ⟨ball 1 1, oneBin, 0⟩) := by
  obtain ⟨r, k, h⟩ := warmRun_result
  obtain ⟨r', k', h'⟩ := mist_result
  have hs : EnergySource warmRun.world warmRun.source := ⟨rfl, ⟨3 / 2, rfl, by norm_num⟩, _,
    (warm_cells .surfaceTracking ⟨0, 0, 0⟩).1 (by norm_num), by simp [warmIn]⟩
  have hs' : EnergySource mistRun.world mistRun.source := ⟨rfl, ⟨3 / 2, rfl, by norm_num⟩, _,
    (mist_cells ⟨0, 0, 0⟩).1 (by norm_num), by simp [mistIn]⟩
  have hd : Configured warmRun.source.direction := by norm_num [warmRun, warmProblem, Configured, UnitVec]
  have ht : ∀ c ∈ warmRun.world.cells, CanTurn upsideDown c := fun c _ => Or.inl upsideDown_rigid.2
  obtain ⟨a, b, -, key⟩ := C101_result
  obtain ⟨a', b', -, key'⟩ := C102_gases_result
  obtain ⟨u, v, u', v', c, c', e, -, -, -, hk⟩ := key (data := fun _ => warmData) (data' := fun _ => warmData)
    upsideDown_rigid.1 mist_turned (warm_world .surfaceTracking) (mist_world ⟨1, 0, 0⟩ .surfaceTracking) mist_alike hs hs' hd ht
    warmRun_fresh (by norm_num [warmRun, warmProblem, slabProblem]) (by norm_num [mistRun])
    (by norm_num [warmRun]) h h'
  obtain ⟨s, t, s', t', z, z', y, -, -, hp, hp', hj⟩ := key' (data := fun _ => warmData)
    (data' := fun _ => warmData)
    upsideDown_rigid.1 mist_turned (warm_world .surfaceTracking) (mist_world ⟨1, 0, 0⟩ .surfaceTracking) mist_alike hs hs' hd ht
    warmRun_fresh (by norm_num [warmRun, warmProblem, slabProblem]) (by norm_num [mistRun])
    (by norm_num [warmRun]) h h'
  obtain ⟨q, q', e1, e2, -, -, hq⟩ := hk 0 _ rfl
  refine ⟨r, k, r', k', q, q', h, h', e1, e2, ?_, ?_⟩
  · obtain ⟨f, f', hlaw, rfl, rfl, m1, -, m2, -⟩ := hq 0 Nat.one_pos
    exact ⟨fun S => gasPlayed S a b (fun _ => warmData) warmRun (energyHit (ball 1 1) oneBin 0) u v c e,
      fun S => gasPlayed S a b (fun _ => warmData) mistRun
        (energyHit (turnSurface upsideDown (ball 1 1)) (turnBins upsideDown oneBin) 0) u' v' c' e,
      hlaw, m1, m2⟩
  · exact ⟨fun S o => gasPlayed S a' b' (fun _ => warmData) warmRun
        (energyHit o.surface o.bins o.index) s t z y,
      fun S o => gasPlayed S a' b' (fun _ => warmData) mistRun
        (energyHit o.surface o.bins o.index) s' t' z' y,
      hp, hp', hj (Fin 1) fun _ => ⟨ball 1 1, oneBin, 0⟩⟩

end Minimc.Props
