import Verif.Lemmas.GasChain
import Verif.Props.GasTransport
import Verif.Props.Mixture
import Verif.Props.Turn

/-!
# Properties: what counts in problems with continuous energies (C101)

Problems with gases that are turned or mirrored as a whole, with any tracking method, and with gases that
are made of the same nuclei, written in any way.
-/

namespace Minimc.Props

open Classical Spec MeasureTheory ProbabilityTheory
open scoped ENNReal

variable {R : Point → Point} {data data' : Nuclide → Continuous} {a b a' b' : Direction → Direction}

/-! ### Histories and results -/

/-- **C101** What the current estimator counts in a history is the score of a game that is played with the
generator that starts at the seed plus the number of the history.  The game is the same for all histories,
all estimators and all bins. -/
theorem C101_history : ∃ a b : Direction → Direction, Frames a b ∧
    ∀ {data : Nuclide → Continuous} {P : Problem}, GasWorld data P.world →
      EnergySource P.world P.source → Configured P.source.direction →
      ∃ u v c e, (∀ r, P.source.direction = .isotropicFlux r → Frame u v r) ∧
        FirstCell P.world P.source.position c ∧ P.source.energy = .continuous e ∧ 0 < e ∧
        ∀ fuel h states, P.history fuel h = .ok states → ∀ surface bins i,
          (crossings surface bins states i : ℝ≥0∞) =
            gasPlayed generator a b data P (energyHit surface bins i) u v c e (Rng.ofSeed (P.seed + h)) := by
  obtain ⟨a, b, hab, key⟩ := C81_history
  refine ⟨a, b, hab, fun {data P} hw hs hd => ?_⟩
  obtain ⟨e, e1, e2⟩ := hs.energy
  obtain ⟨c, hc, -⟩ := hs.place
  obtain ⟨u, v, hf, huv⟩ := source_emits P.source hd
  refine ⟨u, v, c, e, hf, hc, e1, e2, ?_⟩
  intro fuel h states hst surface bins i
  obtain ⟨q, c', e', k1, k2, k3, k4⟩ := key hw hs hd hst surface bins i
  obtain rfl : c' = c := Option.some.inj ((cellAt_of_first k2).symm.trans (cellAt_of_first hc))
  obtain rfl : e' = e := by
    rw [e1] at k3
    cases k3
    rfl
  rw [k4]
  exact huv (P.seed + h) q k1 fun d s => ⨆ n, gasScore generator a b data P.world P.method
    (energyHit surface bins i) n c' P.source.position d e' s

/-- **C101** What a run prints for every bin of every current estimator: the mean of the scores of the games
of its histories and the standard error of that mean, whatever the number of threads and the schedule. -/
theorem C101_printed : ∃ a b : Direction → Direction, Frames a b ∧
    ∀ {data : Nuclide → Continuous} {P : Problem}, GasWorld data P.world →
      EnergySource P.world P.source → Configured P.source.direction → FreshSet P.init → 1 ≤ P.threads →
      1 ≤ P.batchsize → ∀ {fuel elapsed : ℕ} {r : EstimatorSet}, SolveResult P fuel 0 r elapsed →
      ∃ u v c e, (∀ r, P.source.direction = .isotropicFlux r → Frame u v r) ∧
        FirstCell P.world P.source.position c ∧ P.source.energy = .continuous e ∧ 0 < e ∧
        List.Forall₂ (fun o o' : Estimator => o'.base.name = o.base.name ∧
          ∀ i < o.base.bins.size,
            (o'.base.means P.batchsize)[i]? = some (.ok (mean (sample (fun k =>
              (gasPlayed generator a b data P (energyHit o.surface o.base.bins i) u v c e
                (Rng.ofSeed (P.seed + k))).toReal) P.batchsize))) ∧
            (o'.base.stdDevs P.batchsize)[i]? = some (.ok (standardError (sample (fun k =>
              (gasPlayed generator a b data P (energyHit o.surface o.base.bins i) u v c e
                (Rng.ofSeed (P.seed + k))).toReal) P.batchsize))))
          P.init.estimators r.estimators := by
  obtain ⟨a, b, hab, key⟩ := C101_history
  refine ⟨a, b, hab, fun {data P} hw hs hd hinit ht hb {fuel elapsed r} h => ?_⟩
  obtain ⟨u, v, c, e, h1, h2, h3, h4, h5⟩ := key hw hs hd
  refine ⟨u, v, c, e, h1, h2, h3, h4, ?_⟩
  obtain ⟨hists, hl, hh, hr⟩ := C32_as_if_sequential hinit ht h
  have hne : hists ≠ [] := by
    rintro rfl
    simp at hl
    omega
  have hp := C35_printed hinit.shaped hinit.bins hinit.zero hne hr
  refine hp.imp fun o o' ⟨k1, _, _, k2, _⟩ => ⟨k1, fun i hi => ?_⟩
  obtain ⟨m1, m2⟩ := k2 i hi
  have hmap : hists.map (historyScore o.base.bins
      (fun p => if Crossed o.surface p then 1 else 0) · i) = sample (fun k =>
        (gasPlayed generator a b data P (energyHit o.surface o.base.bins i) u v c e
          (Rng.ofSeed (P.seed + k))).toReal) P.batchsize := by
    unfold sample
    apply List.ext_getElem
    · simp [hl]
    · intro k hk hk'
      simp only [List.getElem_map, List.getElem_range]
      have hk2 : k < hists.length := by simpa using hk
      rw [historyScore_crossings, ← h5 fuel k hists[k] (hh k _ (List.getElem?_eq_getElem hk2))]
      simp
  rw [hmap, hl] at m1 m2
  exact ⟨m1, m2⟩

/-! ### Distributions -/

theorem turn_energyHit (hR : Rigid R) (surface : SurfaceObj) (bins : ParticleBins) (i : ℕ)
    (s : SurfaceObj) (d : Direction) (e : ℝ) :
    energyHit (turnSurface R surface) (turnBins R bins) i (turnSurface R s) (R d) e =
      energyHit surface bins i s d e := by
  have k : (turnBins R bins).getIndex (R d) e = bins.getIndex d e := by
    unfold ParticleBins.getIndex turnBins
    dsimp only
    cases bins.direction with
    | none => rfl
    | some r => simp only [Option.map_some, rigid_dot hR]
  unfold energyHit
  rw [k]
  rfl

/-- **C101** A neutron and its descendants score the same in both problems, as far as the distribution is
concerned, with either tracking method and wherever azimuths are measured from. -/
theorem C101_neutron (hR : Rigid R) (h : Frames a b) (h' : Frames a' b') {w w' : World}
    (hw : GasWorld data w) (hw' : GasWorld data' w') (hww : GasesAlike R data data' w w')
    (ht : ∀ c ∈ w.cells, CanTurn R c) (method method' : Method) (surface : SurfaceObj)
    (bins : ParticleBins) (i : ℕ) {c c' : Cell} (hc : c ∈ w.cells) (hc' : c' ∈ w'.cells)
    (hcc : GasCellsAlike R data data' c c') (x : Point) {d : Direction} (hd : UnitVec d) {e : ℝ}
    (he : 0 < e) :
    SameLaw (fun us => ⨆ n, gasScore endless a b data w method (energyHit surface bins i) n c x d e us)
      fun us => ⨆ n, gasScore endless a' b' data' w' method'
        (energyHit (turnSurface R surface) (turnBins R bins) i) n c' (R x) (R d) e us :=
  same_gasScore_all hR h h' hw hw' hww ht method method' (measurable_energyHit surface bins i)
    (measurable_energyHit _ _ i) (turn_energyHit hR surface bins i) hc hc' hcc x d e hd he

/-- **C101** So the solution of the transport equation of C81 is turned with the problem, and depends on the
gases in this way only. -/
theorem C101_mean (hR : Rigid R) (h : Frames a b) (h' : Frames a' b') {w w' : World}
    (hw : GasWorld data w) (hw' : GasWorld data' w') (hww : GasesAlike R data data' w w')
    (ht : ∀ c ∈ w.cells, CanTurn R c) (method method' : Method) (surface : SurfaceObj)
    (bins : ParticleBins) (i : ℕ) {c c' : Cell} (hc : c ∈ w.cells) (hc' : c' ∈ w'.cells)
    (hcc : GasCellsAlike R data data' c c') (x : Point) {d : Direction} (hd : UnitVec d) {e : ℝ}
    (he : 0 < e) :
    meanGas a b data w method (energyHit surface bins i) c x d e =
      meanGas a' b' data' w' method' (energyHit (turnSurface R surface) (turnBins R bins) i) c'
        (R x) (R d) e :=
  C101_neutron hR h h' hw hw' hww ht method method' surface bins i hc hc' hcc x hd he id measurable_id

theorem measurable_gasPlayed (h : Frames a b) {P : Problem} {hit : SurfaceObj → Direction → ℝ → ℝ≥0∞}
    (hh : ∀ s, Measurable fun q : Direction × ℝ => hit s q.1 q.2) (u v : Direction) (c : Cell) (e : ℝ) :
    Measurable (gasPlayed endless a b data P hit u v c e) :=
  measurable_emitted u v P.source.direction (measurable_gas_rounds h hh c P.source.position e)

/-- **C101** The score of a history has the same distribution in both problems. -/
theorem C101_score (hR : Rigid R) (h : Frames a b) (h' : Frames a' b') {P P' : Problem}
    (hP : TurnedTask R P P') (hw : GasWorld data P.world) (hw' : GasWorld data' P'.world)
    (hww : GasesAlike R data data' P.world P'.world) (hd : Configured P.source.direction)
    (ht : ∀ c ∈ P.world.cells, CanTurn R c) (surface : SurfaceObj) (bins : ParticleBins) (i : ℕ)
    {u v u' v' : Direction} (hf : ∀ r, P.source.direction = .isotropicFlux r → Frame u v r)
    (hf' : ∀ r, P'.source.direction = .isotropicFlux r → Frame u' v' r) {c c' : Cell}
    (hc : FirstCell P.world P.source.position c) (hc' : FirstCell P'.world P'.source.position c') {e : ℝ}
    (he : 0 < e) :
    SameLaw (gasPlayed endless a b data P (energyHit surface bins i) u v c e)
      (gasPlayed endless a' b' data' P' (energyHit (turnSurface R surface) (turnBins R bins) i) u' v'
        c' e) := by
  have k := cellAt_of_first hc
  have k' := cellAt_of_first hc'
  rw [hP.source] at k' hf'
  have hcc : GasCellsAlike R data data' c c' := by
    rcases gases_cellAt hR ht hww P.source.position with ⟨q1, -⟩ | ⟨q, q', q1, q2, hq⟩
    · rw [k] at q1
      cases q1
    · obtain rfl : q = c := Option.some.inj (q1.symm.trans k)
      obtain rfl : q' = c' := Option.some.inj (q2.symm.trans k')
      exact hq
  unfold gasPlayed
  rw [hP.source]
  exact sameLaw_emitted_unit hR hd hf hf'
    (measurable_gas_rounds h (measurable_energyHit surface bins i) c P.source.position e)
    (measurable_gas_rounds h' (measurable_energyHit (turnSurface R surface) (turnBins R bins) i) c'
      (R P.source.position) e)
    fun d hd => C101_neutron hR h h' hw hw' hww ht P.method P'.method surface bins i (cellAt_mem k)
      (cellAt_mem k') hcc P.source.position hd he

/-- **C101** So has everything that is calculated from independent histories, such as the mean and the
standard deviation that are printed. -/
theorem C101_run (hR : Rigid R) (h : Frames a b) (h' : Frames a' b') {P P' : Problem}
    (hP : TurnedTask R P P') (hw : GasWorld data P.world) (hw' : GasWorld data' P'.world)
    (hww : GasesAlike R data data' P.world P'.world) (hd : Configured P.source.direction)
    (ht : ∀ c ∈ P.world.cells, CanTurn R c) (surface : SurfaceObj) (bins : ParticleBins) (i : ℕ)
    {u v u' v' : Direction} (hf : ∀ r, P.source.direction = .isotropicFlux r → Frame u v r)
    (hf' : ∀ r, P'.source.direction = .isotropicFlux r → Frame u' v' r) {c c' : Cell}
    (hc : FirstCell P.world P.source.position c) (hc' : FirstCell P'.world P'.source.position c') {e : ℝ}
    (he : 0 < e) {Φ : (ℕ → ℝ≥0∞) → ℝ≥0∞} (hΦ : Measurable Φ) :
    ∫⁻ histories, Φ (fun k => gasPlayed endless a b data P (energyHit surface bins i) u v c e
        (histories k)) ∂(Measure.infinitePi fun _ : ℕ => uniforms) =
      ∫⁻ histories, Φ (fun k => gasPlayed endless a' b' data' P'
        (energyHit (turnSurface R surface) (turnBins R bins) i) u' v' c' e (histories k))
        ∂(Measure.infinitePi fun _ : ℕ => uniforms) :=
  C99_run (measurable_gasPlayed h (measurable_energyHit surface bins i) u v c e)
    (measurable_gasPlayed h' (measurable_energyHit _ _ i) u' v' c' e)
    (C101_score hR h h' hP hw hw' hww hd ht surface bins i hf hf' hc hc' he) hΦ

theorem turn_configured (hR : Rigid R) {dist : DirectionDist} (hd : Configured dist) :
    Configured (turnDist R dist) := by
  cases dist with
  | constant d => exact rigid_unit hR hd
  | isotropic => trivial
  | isotropicFlux r => exact rigid_unit hR hd

/-- **C101** What runs of the program print for both problems, with any seeds, numbers of threads, schedules
and tracking methods: for every estimator and every bin the mean and the standard error of the scores of
games that have the same distribution. -/
theorem C101_result : ∃ a b : Direction → Direction, Frames a b ∧
    ∀ {R : Point → Point} {data data' : Nuclide → Continuous} {P P' : Problem}, Rigid R →
      TurnedTask R P P' → GasWorld data P.world → GasWorld data' P'.world →
      GasesAlike R data data' P.world P'.world → EnergySource P.world P.source →
      EnergySource P'.world P'.source → Configured P.source.direction →
      (∀ c ∈ P.world.cells, CanTurn R c) → FreshSet P.init → 1 ≤ P.threads → 1 ≤ P'.threads →
      1 ≤ P.batchsize → ∀ {fuel fuel' elapsed elapsed' : ℕ} {r r' : EstimatorSet},
      SolveResult P fuel 0 r elapsed → SolveResult P' fuel' 0 r' elapsed' →
      ∃ u v u' v' c c' e, FirstCell P.world P.source.position c ∧
        FirstCell P'.world P'.source.position c' ∧ P.source.energy = .continuous e ∧
        ∀ (k : ℕ) (o : Estimator), P.init.estimators[k]? = some o →
          ∃ q q' : Estimator, r.estimators[k]? = some q ∧ r'.estimators[k]? = some q' ∧
            q.base.name = o.base.name ∧ q'.base.name = o.base.name ∧
            ∀ i < o.base.bins.size, ∃ f f' : (ℕ → ℝ) → ℝ≥0∞, SameLaw f f' ∧
              f = gasPlayed endless a b data P (energyHit o.surface o.base.bins i) u v c e ∧
              f' = gasPlayed endless a b data' P' (energyHit (turnSurface R o.surface)
                (turnBins R o.base.bins) i) u' v' c' e ∧
              (q.base.means P.batchsize)[i]? = some (.ok (mean (sample (fun k =>
                (gasPlayed generator a b data P (energyHit o.surface o.base.bins i) u v c e
                  (Rng.ofSeed (P.seed + k))).toReal) P.batchsize))) ∧
              (q.base.stdDevs P.batchsize)[i]? = some (.ok (standardError (sample (fun k =>
                (gasPlayed generator a b data P (energyHit o.surface o.base.bins i) u v c e
                  (Rng.ofSeed (P.seed + k))).toReal) P.batchsize))) ∧
              (q'.base.means P.batchsize)[i]? = some (.ok (mean (sample (fun k =>
                (gasPlayed generator a b data' P' (energyHit (turnSurface R o.surface)
                  (turnBins R o.base.bins) i) u' v' c' e (Rng.ofSeed (P'.seed + k))).toReal)
                P.batchsize))) ∧
              (q'.base.stdDevs P.batchsize)[i]? = some (.ok (standardError (sample (fun k =>
                (gasPlayed generator a b data' P' (energyHit (turnSurface R o.surface)
                  (turnBins R o.base.bins) i) u' v' c' e (Rng.ofSeed (P'.seed + k))).toReal)
                P.batchsize))) := by
  obtain ⟨a, b, hab, key⟩ := C101_printed
  refine ⟨a, b, hab, ?_⟩
  intro R data data' P P' hR hP hw hw' hww hs hs' hd ht hinit hth hth' hb fuel fuel' elapsed elapsed' r r' h h'
  have hd' : Configured P'.source.direction := by
    rw [hP.source]
    exact turn_configured hR hd
  have hinit' : FreshSet P'.init := hP.estimators ▸ turn_fresh R hinit
  obtain ⟨u, v, c, e, f1, f2, f3, he, f4⟩ := key hw hs hd hinit hth hb h
  obtain ⟨u', v', c', e', f1', f2', f3', -, f4'⟩ := key hw' hs' hd' hinit' hth' (hP.histories ▸ hb) h'
  obtain rfl : e' = e := by
    rw [hP.source] at f3'
    have : P.source.energy = .continuous e' := f3'
    rw [f3] at this
    cases this
    rfl
  obtain ⟨hlen, hget⟩ := List.forall₂_iff_get.1 f4
  obtain ⟨hlen', hget'⟩ := List.forall₂_iff_get.1 f4'
  refine ⟨u, v, u', v', c, c', e', f2, f2', f3, fun k o ho => ?_⟩
  obtain ⟨hk, hek⟩ := List.getElem?_eq_some_iff.1 ho
  have hk' : k < P'.init.estimators.length := by
    rw [hP.estimators]
    simpa [turnSet] using hk
  have hek' : P'.init.estimators[k] = turnEstimator R o := by
    have : P'.init.estimators[k]? = some (turnEstimator R o) := by
      rw [hP.estimators]
      simp only [turnSet, List.getElem?_map, ho, Option.map_some]
    exact (List.getElem?_eq_some_iff.1 this).2
  obtain ⟨n1, p1⟩ := hget k hk (hlen ▸ hk)
  obtain ⟨n2, p2⟩ := hget' k hk' (hlen' ▸ hk')
  simp only [List.get_eq_getElem] at n1 p1 n2 p2
  rw [hek] at n1 p1
  rw [hek'] at n2 p2
  refine ⟨_, _, List.getElem?_eq_getElem (hlen ▸ hk), List.getElem?_eq_getElem (hlen' ▸ hk'), n1, n2,
    fun i hi => ?_⟩
  obtain ⟨m1, s1⟩ := p1 i hi
  obtain ⟨m2, s2⟩ := p2 i hi
  rw [hP.histories] at m2 s2
  exact ⟨_, _, C101_score hR hab hab hP hw hw' hww hd ht o.surface o.base.bins i f1 f1' f2 f2' he, rfl, rfl,
    m1, s1, m2, s2⟩

/-! ### Consequences -/

/-- **C101** A world of gases that is turned is a world of gases, and is related to the given one. -/
theorem C101_turned (hR : Rigid R) {w : World} (hw : GasWorld data w) (ht : ∀ c ∈ w.cells, CanTurn R c) :
    GasWorld data (turnWorld R w) ∧ GasesAlike R data data w (turnWorld R w) := by
  have hm : ∀ c ∈ (turnWorld R w).cells, ∃ c' ∈ w.cells, turnCell R c' = c := fun c hc =>
    List.mem_map.1 hc
  refine ⟨⟨⟨fun y => ?_, ?_, ?_, ?_, ?_, ?_⟩, ?_, ?_, ?_⟩, ?_⟩
  · obtain ⟨x, rfl⟩ := rigid_surjective hR y
    obtain ⟨c, hc, hx⟩ := hw.sound.covered x
    exact ⟨turnCell R c, List.mem_map.2 ⟨c, hc, rfl⟩, (turn_inCell hR (ht c hc) x).2 hx⟩
  · intro c hc
    obtain ⟨c', hc', rfl⟩ := hm c hc
    intro k e
    exact hw.sound.bounded c' hc' k (List.map_eq_nil_iff.1 e)
  · intro c hc
    obtain ⟨c', hc', rfl⟩ := hm c hc
    exact hw.sound.density c' hc'
  · intro c hc hq
    obtain ⟨c', hc', rfl⟩ := hm c hc
    obtain ⟨t, -, h2⟩ := hw.warm c' hc' hq
    have := hw.sound.upper c' hc' hq
    change 0 ≤ (turnField R c'.temperature).upperBound
    rw [h2] at this ⊢
    exact this
  · intro c hc
    obtain ⟨c', hc', rfl⟩ := hm c hc
    exact hw.sound.data c' hc'
  · intro c hc
    obtain ⟨c', hc', rfl⟩ := hm c hc
    exact hw.sound.reacts c' hc'
  · intro c hc
    obtain ⟨c', hc', rfl⟩ := hm c hc
    exact hw.supplied c' hc'
  · intro c hc hq
    obtain ⟨c', hc', rfl⟩ := hm c hc
    obtain ⟨t, h1, h2⟩ := hw.warm c' hc' hq
    refine ⟨t, h1, ?_⟩
    change turnField R c'.temperature = _
    rw [h2]
    rfl
  · intro c hc
    obtain ⟨c', hc', rfl⟩ := hm c hc
    exact hw.tables c' hc'
  · change List.Forall₂ _ w.cells (w.cells.map (turnCell R))
    rw [List.forall₂_map_right_iff, List.forall₂_same]
    refine fun c hc => ⟨⟨rfl, ?_⟩, fun hq => ?_⟩
    · cases hcm : c.material with
      | none => exact Or.inl ⟨hcm, hcm⟩
      | some m => exact Or.inr ⟨m, m, hcm, hcm, fun _ => rfl⟩
    · obtain ⟨t, -, h2⟩ := hw.warm c hc hq
      change turnField R c.temperature = _
      rw [h2]
      rfl

/-- **C101** The tracking method does not change the distribution of scores. -/
theorem C101_methods (h : Frames a b) {P : Problem} (hw : GasWorld data P.world)
    (hd : Configured P.source.direction) (method' : Method) (surface : SurfaceObj) (bins : ParticleBins)
    (i : ℕ) {u v : Direction} (hf : ∀ r, P.source.direction = .isotropicFlux r → Frame u v r) {c : Cell}
    (hc : FirstCell P.world P.source.position c) {e : ℝ} (he : 0 < e) :
    SameLaw (gasPlayed endless a b data P (energyHit surface bins i) u v c e)
      (gasPlayed endless a b data { P with method := method' } (energyHit surface bins i) u v c e) := by
  have hP : TurnedTask id P { P with method := method', init := turnSet id P.init } := by
    refine ⟨?_, rfl, rfl⟩
    unfold turnSource
    have : turnDist id P.source.direction = P.source.direction := by cases P.source.direction <;> rfl
    rw [this]
    rfl
  have ht : ∀ c ∈ P.world.cells, CanTurn id c := fun c _ => Or.inl rfl
  have hww := (C101_turned rigid_id hw ht).2
  rw [turnWorld_id] at hww
  have key := C101_score rigid_id h h hP hw hw hww hd ht surface bins i hf hf hc hc he
  rwa [turnSurface_id, turnBins_id] at key

/-! ### Instance -/

noncomputable def steam : Nuclide := { warmNuclide with id := 2, name := "v" }

noncomputable def vapour : Nuclide := { warmNuclide with id := 3, name := "w" }

/-- As many nuclei as in the gas of C81, of two nuclides with the same reactions as there. -/
noncomputable def mist : Material := ⟨"mist", [(vapour, 3 / 2), (steam, 1 / 2)], 1 / 24⟩

noncomputable def mistIn : Cell := ⟨"fog", [(ball 1 1, true)], some mist, .constant 600⟩

/-- A beam in any direction from the centre of a ball of that gas. -/
noncomputable def mistProblem (r : Direction) (method : Method) : Problem :=
  { warmProblem method with
    world := ⟨[ball 1 1], [steam, vapour], [mist], .constant 300, [mistIn, fogOut]⟩
    source := ⟨⟨0, 0, 0⟩, .constant r, .continuous (3 / 2), .neutron⟩ }

theorem mist_world (r : Direction) (method : Method) :
    GasWorld (fun _ => warmData) (mistProblem r method).world := by
  have hcm : ∀ c ∈ (mistProblem r method).world.cells, ∀ m, c.material = some m →
      m = mist ∧ c = mistIn := by
    intro c hc m hm
    simp only [mistProblem, List.mem_cons, List.not_mem_nil, or_false] at hc
    rcases hc with rfl | rfl
    · exact ⟨by simpa [mistIn] using hm.symm, rfl⟩
    · cases hm
  have hcm' : ∀ c ∈ (mistProblem r method).world.cells, c.material ≠ none → c = mistIn := by
    intro c hc hm
    obtain ⟨m, hm⟩ := Option.ne_none_iff_exists'.1 hm
    exact (hcm c hc m hm).2
  have hx1 : ∀ x ∈ mist.afracs, 0 < x.2 ∧ x.1.xs = warmNuclide.xs := by
    intro x hx
    simp only [mist, List.mem_cons, List.not_mem_nil, or_false] at hx
    rcases hx with rfl | rfl
    · exact ⟨by norm_num, rfl⟩
    · exact ⟨by norm_num, rfl⟩
  refine ⟨⟨?_, ?_, ?_, ?_, ?_, ?_⟩, ?_, ?_, ?_⟩
  · intro x
    have b1 := ball_contains 1 1 x
    norm_num at b1
    rcases lt_or_ge (x.x ^ 2 + x.y ^ 2 + x.z ^ 2) 1 with h | h
    · exact ⟨mistIn, by simp [mistProblem], by simp [InCell, mistIn, b1, h]⟩
    · exact ⟨fogOut, by simp [mistProblem], by simp [InCell, fogOut, ← Bool.not_eq_true, b1, h]⟩
  · intro c hc hm
    rw [hcm' c hc hm]
    simp [mistIn]
  · intro c hc m hm
    rw [(hcm c hc m hm).1]
    norm_num [mist]
  · intro c hc hm
    rw [hcm' c hc hm]
    norm_num [mistIn, ScalarField.upperBound]
  · intro c hc m hm x hx
    rw [(hcm c hc m hm).1] at hx
    obtain ⟨h1, h2⟩ := hx1 x hx
    exact ⟨h1, warmData, by rw [h2]; rfl, warmData_sound⟩
  · intro c hc m hm e _
    rw [(hcm c hc m hm).1]
    refine ⟨(steam, 1 / 2), by simp [mist], warmData, _, rfl, pair_table _ _ _, ?_⟩
    split_ifs with h1 h2
    · norm_num
    · rw [not_le] at h1
      linarith
    · norm_num
  · intro c hc m hm x hx
    rw [(hcm c hc m hm).1] at hx
    rw [(hx1 x hx).2]
    rfl
  · intro c hc hm
    rw [hcm' c hc hm]
    exact ⟨600, by norm_num, rfl⟩
  · intro c hc m hm x hx r hr
    simp only [warmData, List.mem_cons, List.not_mem_nil, or_false] at hr
    rcases hr with rfl | rfl | rfl
    · exact ⟨by simp [Sorted, ContinuousReaction.evaluation], le_rfl, by simp⟩
    · exact ⟨pair_sorted _ _, le_rfl, by simp⟩
    · refine ⟨by simp [Sorted, ContinuousReaction.evaluation], le_rfl, ?_⟩
      intro ev l h
      cases h
      exact pair_sorted _ _

/-- Instance of the hypotheses of C101: the number of neutrons that leave the ball has the same distribution
for a beam in any direction, for both tracking methods and for both ways to write the gas. -/
theorem example_mist {r : Direction} (hr : UnitVec r) (hne : r ≠ ⟨1, 0, 0⟩) (h : Frames a b)
    (h' : Frames a' b') (bins : ParticleBins) (i : ℕ) (u v : Direction) :
    ∃ R, Rigid R ∧ R ⟨1, 0, 0⟩ = r ∧
      SameLaw (gasPlayed endless a b (fun _ => warmData) (warmProblem .surfaceTracking)
          (energyHit (ball 1 1) bins i) u v warmIn (3 / 2))
        (gasPlayed endless a' b' (fun _ => warmData) (mistProblem r .cellDeltaTracking)
          (energyHit (ball 1 1) (turnBins R bins) i) u v mistIn (3 / 2)) := by
  have ux : UnitVec ⟨1, 0, 0⟩ := by unfold UnitVec; norm_num
  obtain ⟨h0, hm⟩ := mirrored_across ux hr hne.symm
  have hR := C99_mirror h0
  set R := mirrored (⟨1, 0, 0⟩ - r) with hRdef
  have hsurf : turnSurface R (ball 1 1) = ball 1 1 := by
    unfold turnSurface turnShape ball
    dsimp only
    rw [rigid_zero hR]
  refine ⟨R, hR, hm, ?_⟩
  have hP : TurnedTask R (warmProblem .surfaceTracking)
      { mistProblem r .cellDeltaTracking with init := turnSet R (warmProblem .surfaceTracking).init } := by
    refine ⟨?_, rfl, rfl⟩
    change _ = (⟨R ⟨0, 0, 0⟩, .constant (R ⟨1, 0, 0⟩), .continuous (3 / 2), .neutron⟩ : Source)
    rw [rigid_zero hR, hm]
    rfl
  have hgas : SameGas (fun _ => warmData) (fun _ => warmData) warmGas mist := by
    intro rs
    unfold gasAmount
    by_cases e : warmData.reactions = rs
    · simp [e, warmGas, mist]
      norm_num
    · simp [e, warmGas, mist]
  have hww : GasesAlike R (fun _ => warmData) (fun _ => warmData) (warmProblem .surfaceTracking).world
      (mistProblem r .cellDeltaTracking).world := by
    refine .cons ⟨⟨?_, Or.inr ⟨_, _, rfl, rfl, hgas⟩⟩, fun _ => rfl⟩
      (.cons ⟨⟨?_, Or.inl ⟨rfl, rfl⟩⟩, fun _ => rfl⟩ .nil)
    · simp [turnCell, mistIn, warmIn, hsurf]
    · simp [turnCell, fogOut, hsurf]
  have ht : ∀ c ∈ (warmProblem .surfaceTracking).world.cells, CanTurn R c := by
    intro c hc
    simp only [warmProblem, List.mem_cons, List.not_mem_nil, or_false] at hc
    refine Or.inr fun e he => ?_
    rcases hc with rfl | rfl
    · simp only [warmIn, List.mem_cons, List.not_mem_nil, or_false] at he
      subst he
      exact ⟨_, _, rfl⟩
    · simp only [fogOut, List.mem_cons, List.not_mem_nil, or_false] at he
      subst he
      exact ⟨_, _, rfl⟩
  have b1 := ball_contains 1 1 ⟨0, 0, 0⟩
  norm_num at b1
  have key := C101_score hR h h' hP (warm_world .surfaceTracking) (mist_world r .cellDeltaTracking) hww ux ht
    (ball 1 1) bins i (u := u) (v := v) (u' := u) (v' := v) (fun x hx => by cases hx)
    (fun x hx => by cases hx) ((warm_cells .surfaceTracking ⟨0, 0, 0⟩).1 (by norm_num))
    (c' := mistIn) ⟨[], [fogOut], rfl, by simp [InCell, mistIn, mistProblem, b1], by simp⟩
    (e := 3 / 2) (by norm_num)
  rwa [hsurf] at key

end Minimc.Props
