import Verif.Lemmas.TurnSource
import Verif.Props.Coal

/-!
# Properties: how the problem is turned (C99)

A problem that is turned or mirrored as a whole — surfaces, temperatures, source and estimators — is the
same problem: the scores of histories have the same distribution, and so have the results.  The histories
themselves are not turned, because directions are drawn with respect to the axes.  The same argument
shows that the results of the two tracking methods have the same distribution.
-/

namespace Minimc.Props

open Classical Spec MeasureTheory ProbabilityTheory
open scoped ENNReal

variable {R : Point → Point} {G : ℕ} {nodes : Nuclide → List MgNode}

/-! ### What can be turned -/

/-- **C99** Rotations are rigid. -/
theorem C99_rotation {d : Point} (hd : UnitVec d) (t : ℝ) : Rigid (turned d t) := by
  have hc := Real.cos_sq_add_sin_sq t
  constructor
  · intro x e s
    unfold turned along cosAngle
    ext <;> dsimp only <;> ring
  · intro a b
    unfold turned UnitVec cosAngle at *
    dsimp only
    generalize Real.cos t = c at *
    generalize Real.sin t = k at *
    obtain ⟨x, y, z⟩ := d
    obtain ⟨a1, a2, a3⟩ := a
    obtain ⟨b1, b2, b3⟩ := b
    dsimp only at *
    linear_combination (a1 * b1 + a2 * b2 + a3 * b3) * hc +
      (k ^ 2 * (a1 * b1 + a2 * b2 + a3 * b3) +
        (1 - c) ^ 2 * (x * a1 + y * a2 + z * a3) * (x * b1 + y * b2 + z * b3)) * hd -
      (x * a1 + y * a2 + z * a3) * (x * b1 + y * b2 + z * b3) * hc

/-- **C99** Mirrors are rigid. -/
theorem C99_mirror {n : Point} (hn : cosAngle n n ≠ 0) : Rigid (mirrored n) := by
  constructor
  · intro x e s
    unfold mirrored along cosAngle at *
    ext <;> dsimp only <;> ring
  · intro a b
    unfold mirrored along at *
    have e : ∀ u v : Point, cosAngle (⟨u.x + -(2 * cosAngle n u / cosAngle n n) * n.x,
        u.y + -(2 * cosAngle n u / cosAngle n n) * n.y,
        u.z + -(2 * cosAngle n u / cosAngle n n) * n.z⟩ : Point)
        (⟨v.x + -(2 * cosAngle n v / cosAngle n n) * n.x,
        v.y + -(2 * cosAngle n v / cosAngle n n) * n.y,
        v.z + -(2 * cosAngle n v / cosAngle n n) * n.z⟩ : Point) = cosAngle u v := by
      intro u v
      have e1 : cosAngle (⟨u.x + -(2 * cosAngle n u / cosAngle n n) * n.x,
        u.y + -(2 * cosAngle n u / cosAngle n n) * n.y,
        u.z + -(2 * cosAngle n u / cosAngle n n) * n.z⟩ : Point)
        (⟨v.x + -(2 * cosAngle n v / cosAngle n n) * n.x,
        v.y + -(2 * cosAngle n v / cosAngle n n) * n.y,
        v.z + -(2 * cosAngle n v / cosAngle n n) * n.z⟩ : Point) = cosAngle u v -
          (2 * cosAngle n u / cosAngle n n) * cosAngle n v -
          (2 * cosAngle n v / cosAngle n n) * cosAngle n u +
          (2 * cosAngle n u / cosAngle n n) * (2 * cosAngle n v / cosAngle n n) * cosAngle n n := by
        generalize 2 * cosAngle n u / cosAngle n n = p
        generalize 2 * cosAngle n v / cosAngle n n = q
        unfold cosAngle
        dsimp only
        ring
      rw [e1]
      field_simp
      ring
    exact e a b

/-- **C99** A point is inside a turned surface just if it was inside before, and the distance along a
turned direction is the same. -/
theorem C99_surface (hR : Rigid R) {s : Surface}
    (h : R ⟨1, 0, 0⟩ = ⟨1, 0, 0⟩ ∨ ∃ center radius, s = .sphere center radius) (x : Point) (d : Direction) :
    (turnShape R s).contains (R x) = s.contains x ∧
      (turnShape R s).distance (R x) (R d) = s.distance x d :=
  ⟨turn_contains hR h x, turn_distance hR h x d⟩

/-- **C99** The turned problem is as well posed as the given one, and neutrons start in the turned
cell. -/
theorem C99_problem (hR : Rigid R) {P P' : Problem} (hP : Turned R P P')
    (hw : WellPosed G nodes P.world) (hs : GroupSource G P.world P.source)
    (hd : Configured P.source.direction) (ht : ∀ c ∈ P.world.cells, CanTurn R c) :
    WellPosed G nodes P'.world ∧ GroupSource G P'.world P'.source ∧ Configured P'.source.direction ∧
      ∀ c, FirstCell P.world P.source.position c →
        FirstCell P'.world P'.source.position (turnCell R c) := by
  rw [hP.world, hP.source]
  refine ⟨turn_wellPosed hR ht hw, ⟨hs.type, hs.group, ?_⟩, ?_, fun c hc => turn_firstCell hR ht hc⟩
  · obtain ⟨c, hc, hm⟩ := hs.place
    exact ⟨turnCell R c, turn_firstCell hR ht hc, hm⟩
  · change Configured (turnDist R P.source.direction)
    cases hdir : P.source.direction with
    | constant d =>
      rw [hdir] at hd
      exact rigid_unit hR hd
    | isotropic => trivial
    | isotropicFlux r =>
      rw [hdir] at hd
      exact rigid_unit hR hd

theorem turn_currentHit (hR : Rigid R) (surface : SurfaceObj) (bins : ParticleBins) (i : ℕ)
    (s : SurfaceObj) (d : Direction) (g : ℕ) :
    currentHit (turnSurface R surface) (turnBins R bins) i (turnSurface R s) (R d) g =
      currentHit surface bins i s d g := by
  have e : (turnBins R bins).getIndex (R d) g = bins.getIndex d g := by
    unfold ParticleBins.getIndex turnBins
    dsimp only
    cases bins.direction with
    | none => rfl
    | some r => simp only [Option.map_some, rigid_dot hR]
  unfold currentHit
  rw [e]
  rfl

/-! ### The distribution of scores -/

/-- **C99** A neutron and its descendants score the same, as far as the distribution is concerned, in
the given and in the turned problem, with either tracking method. -/
theorem C99_neutron (hR : Rigid R) {w : World} (hw : WellPosed G nodes w)
    (ht : ∀ c ∈ w.cells, CanTurn R c) (method method' : Method) (surface : SurfaceObj)
    (bins : ParticleBins) (i : ℕ) {c : Cell} (hc : c ∈ w.cells) (x : Point) (d : Direction) (g : ℕ) :
    SameLaw (fun us => ⨆ n, chainScore endless G nodes w method (currentHit surface bins i) n c x d g us)
      fun us => ⨆ n, chainScore endless G nodes (turnWorld R w) method'
        (currentHit (turnSurface R surface) (turnBins R bins) i) n (turnCell R c) (R x) (R d) g us :=
  sameLaw_chain_all hR hw ht method method' (measurable_currentHit surface bins i)
    (measurable_currentHit _ _ i) (turn_currentHit hR surface bins i) hc x d g

/-- **C99** The score of a history of the turned problem has the same distribution, whatever the frames
in which the directions of the sources are drawn, and with either tracking method. -/
theorem C99_score (hR : Rigid R) {P P' : Problem} (hP : Turned R P P') (hw : WellPosed G nodes P.world)
    (hd : Configured P.source.direction) (ht : ∀ c ∈ P.world.cells, CanTurn R c) (surface : SurfaceObj)
    (bins : ParticleBins) (i : ℕ) {a b a' b' : Direction}
    (hf : ∀ r, P.source.direction = .isotropicFlux r → Frame a b r)
    (hf' : ∀ r, P'.source.direction = .isotropicFlux r → Frame a' b' r)
    {c : Cell} (hc : c ∈ P.world.cells) (g : ℕ) :
    SameLaw (played endless G nodes P (currentHit surface bins i) a b c g)
      (played endless G nodes P' (currentHit (turnSurface R surface) (turnBins R bins) i) a' b'
        (turnCell R c) g) := by
  unfold played
  rw [hP.source] at hf' ⊢
  rw [hP.world]
  exact sameLaw_emitted hR hd hf hf'
    (measurable_all_rounds G nodes P.world P.method (measurable_currentHit surface bins i) c
      P.source.position g)
    (measurable_all_rounds G nodes (turnWorld R P.world) P'.method
      (measurable_currentHit (turnSurface R surface) (turnBins R bins) i) (turnCell R c)
      (R P.source.position) g)
    fun d => C99_neutron hR hw ht P.method P'.method surface bins i hc P.source.position d g

/-! ### The distribution of results -/

theorem sameLaw_map {f f' : (ℕ → ℝ) → ℝ≥0∞} (hf : Measurable f) (hf' : Measurable f')
    (h : SameLaw f f') : uniforms.map f = uniforms.map f' := by
  ext A hA
  rw [Measure.map_apply hf hA, Measure.map_apply hf' hA]
  have := h (A.indicator 1) (measurable_one.indicator hA)
  have e : ∀ {f : (ℕ → ℝ) → ℝ≥0∞} (_ : Measurable f),
      ∫⁻ us, A.indicator (1 : ℝ≥0∞ → ℝ≥0∞) (f us) ∂uniforms = uniforms (f ⁻¹' A) := by
    intro f hf
    rw [← lintegral_indicator_one (hf hA)]
    rfl
  rwa [e hf, e hf'] at this

/-- **C99** If the scores of histories have the same distribution, then so has everything that is
calculated from the scores of independent histories. -/
theorem C99_run {f f' : (ℕ → ℝ) → ℝ≥0∞} (hf : Measurable f) (hf' : Measurable f') (h : SameLaw f f')
    {Φ : (ℕ → ℝ≥0∞) → ℝ≥0∞} (hΦ : Measurable Φ) :
    ∫⁻ histories, Φ (fun e => f (histories e)) ∂(Measure.infinitePi fun _ : ℕ => uniforms) =
      ∫⁻ histories, Φ (fun e => f' (histories e)) ∂(Measure.infinitePi fun _ : ℕ => uniforms) := by
  have key : ∀ {f : (ℕ → ℝ) → ℝ≥0∞} (_ : Measurable f),
      ∫⁻ histories, Φ (fun e => f (histories e)) ∂(Measure.infinitePi fun _ : ℕ => uniforms) =
        ∫⁻ scores, Φ scores ∂(Measure.infinitePi fun _ : ℕ => uniforms.map f) := by
    intro f hf
    have hm : Measurable fun (histories : ℕ → ℕ → ℝ) (e : ℕ) => f (histories e) :=
      measurable_pi_lambda _ fun e => hf.comp (measurable_pi_apply e)
    rw [← Measure.infinitePi_map_pi (μ := fun _ : ℕ => uniforms) (f := fun _ => f) fun _ => hf,
      lintegral_map hΦ hm]
  rw [key hf, key hf', sameLaw_map hf hf' h]

theorem measurable_mean_sample (n : ℕ) :
    Measurable fun scores : ℕ → ℝ≥0∞ => mean (sample (fun e => (scores e).toReal) n) := by
  simp only [mean_sample]
  exact (Finset.measurable_sum _ fun e _ => (measurable_pi_apply e).ennreal_toReal).div_const _

theorem measurable_standardError_sample (n : ℕ) :
    Measurable fun scores : ℕ → ℝ≥0∞ => standardError (sample (fun e => (scores e).toReal) n) := by
  have e : ∀ s : ℕ → ℝ, standardError (sample s n) =
      Real.sqrt ((∑ e ∈ Finset.range n, (s e - mean (sample s n)) ^ 2) / n / n) := by
    intro s
    have h1 : (sample s n).map (fun x => (x - mean (sample s n)) ^ 2) =
        sample (fun e => (s e - mean (sample s n)) ^ 2) n := by
      unfold sample
      rw [List.map_map]
      rfl
    unfold standardError
    rw [h1, mean_sample, length_sample]
  simp only [e]
  exact (((Finset.measurable_sum _ fun e _ => (((measurable_pi_apply e).ennreal_toReal).sub
    (measurable_mean_sample n)).pow_const 2).div_const _).div_const _).sqrt

/-- **C99** The mean and the standard deviation that are printed for the turned problem have together the
same distribution as those for the given one, if the histories are independent. -/
theorem C99_printed (hR : Rigid R) {P P' : Problem} (hP : Turned R P P') (hw : WellPosed G nodes P.world)
    (hd : Configured P.source.direction) (ht : ∀ c ∈ P.world.cells, CanTurn R c) (surface : SurfaceObj)
    (bins : ParticleBins) (i : ℕ) {a b a' b' : Direction}
    (hf : ∀ r, P.source.direction = .isotropicFlux r → Frame a b r)
    (hf' : ∀ r, P'.source.direction = .isotropicFlux r → Frame a' b' r)
    {c : Cell} (hc : c ∈ P.world.cells) (g n : ℕ) {A : Set (ℝ × ℝ)} (hA : MeasurableSet A) :
    (Measure.infinitePi fun _ : ℕ => uniforms) {histories |
      (mean (sample (fun e => (played endless G nodes P (currentHit surface bins i) a b c g
          (histories e)).toReal) n),
        standardError (sample (fun e => (played endless G nodes P (currentHit surface bins i) a b c g
          (histories e)).toReal) n)) ∈ A} =
    (Measure.infinitePi fun _ : ℕ => uniforms) {histories |
      (mean (sample (fun e => (played endless G nodes P'
          (currentHit (turnSurface R surface) (turnBins R bins) i) a' b' (turnCell R c) g
          (histories e)).toReal) n),
        standardError (sample (fun e => (played endless G nodes P'
          (currentHit (turnSurface R surface) (turnBins R bins) i) a' b' (turnCell R c) g
          (histories e)).toReal) n)) ∈ A} := by
  have hs := C99_score hR hP hw hd ht surface bins i hf hf' hc g
  have m1 : Measurable (played endless G nodes P (currentHit surface bins i) a b c g) :=
    measurable_played (measurable_currentHit surface bins i)
  have m2 : Measurable (played endless G nodes P'
      (currentHit (turnSurface R surface) (turnBins R bins) i) a' b' (turnCell R c) g) :=
    measurable_played (measurable_currentHit _ _ i)
  have hst : Measurable fun scores : ℕ → ℝ≥0∞ => (mean (sample (fun e => (scores e).toReal) n),
      standardError (sample (fun e => (scores e).toReal) n)) :=
    (measurable_mean_sample n).prodMk (measurable_standardError_sample n)
  have key := C99_run m1 m2 hs (Φ := fun scores => A.indicator 1
    (mean (sample (fun e => (scores e).toReal) n), standardError (sample (fun e => (scores e).toReal) n)))
    ((measurable_one.indicator hA).comp hst)
  have e : ∀ {f : (ℕ → ℝ) → ℝ≥0∞} (_ : Measurable f),
      ∫⁻ histories, A.indicator (1 : ℝ × ℝ → ℝ≥0∞)
        (mean (sample (fun e => (f (histories e)).toReal) n),
          standardError (sample (fun e => (f (histories e)).toReal) n))
        ∂(Measure.infinitePi fun _ : ℕ => uniforms) =
      (Measure.infinitePi fun _ : ℕ => uniforms) {histories |
        (mean (sample (fun e => (f (histories e)).toReal) n),
          standardError (sample (fun e => (f (histories e)).toReal) n)) ∈ A} := by
    intro f hf
    have hm : Measurable fun (histories : ℕ → ℕ → ℝ) (e : ℕ) => f (histories e) :=
      measurable_pi_lambda _ fun e => hf.comp (measurable_pi_apply e)
    exact lintegral_indicator_one ((hst.comp hm) hA)
  exact (e m1).symm.trans (key.trans (e m2))

theorem turn_fresh (R : Point → Point) {s : EstimatorSet} (h : FreshSet s) : FreshSet (turnSet R s) := by
  have hb : ∀ b, CreatedParticleBins b → CreatedParticleBins (turnBins R b) := by
    rintro b ⟨c, e, h1, h2, h3⟩
    refine ⟨c, e, h1, h2, ?_⟩
    have h4 : (⟨b.direction, c, e, ParticleBins.computeStrides e⟩ : ParticleBins) = b := Except.ok.inj h3
    rw [← h4]
    rfl
  have hm : ∀ e ∈ (turnSet R s).estimators, ∃ e' ∈ s.estimators, turnEstimator R e' = e := fun e he =>
    List.mem_map.1 he
  have hq : ∀ (e : Estimator), ∀ q ∈ (turnEstimator R e).sensitivities,
      ∃ q' ∈ e.sensitivities, turnSensitivity R q' = q := fun e q hq => List.mem_map.1 hq
  refine ⟨⟨?_, ?_, ?_, ?_⟩, ⟨?_, ?_⟩, ?_⟩
  · intro e he e' he' hn
    obtain ⟨f, hf, rfl⟩ := hm e he
    obtain ⟨f', hf', rfl⟩ := hm e' he'
    rw [h.shaped.names f hf f' hf' hn]
  · intro e he q hq1 q' hq2 hn
    obtain ⟨f, hf, rfl⟩ := hm e he
    obtain ⟨p, hp, rfl⟩ := hq f q hq1
    obtain ⟨p', hp', rfl⟩ := hq f q' hq2
    rw [h.shaped.sensitivityNames f hf p hp p' hp' hn]
  · intro e he
    obtain ⟨f, hf, rfl⟩ := hm e he
    exact h.shaped.base f hf
  · intro e he q hq1
    obtain ⟨f, hf, rfl⟩ := hm e he
    obtain ⟨p, hp, rfl⟩ := hq f q hq1
    exact h.shaped.sensitivities f hf p hp
  · intro e he
    obtain ⟨f, hf, rfl⟩ := hm e he
    exact hb _ (h.bins.base f hf)
  · intro e he q hq1
    obtain ⟨f, hf, rfl⟩ := hm e he
    obtain ⟨p, hp, rfl⟩ := hq f q hq1
    exact hb _ (h.bins.sensitivities f hf p hp)
  · have e1 : (turnSet R s).withTallies 0 = turnSet R (s.withTallies 0) := by
      unfold turnSet EstimatorSet.withTallies
      simp only [List.map_map]
      congr 1
      refine List.map_congr_left fun e _ => ?_
      unfold turnEstimator Estimator.withTallies
      simp only [Function.comp, List.map_map]
      rfl
    rw [e1, ← h.zero]

/-- **C99** What runs of the program print for a problem and for the turned one, with any seeds, numbers
of threads, schedules and tracking methods: for every estimator and every bin the mean and the standard
error of the scores of games that have the same distribution. -/
theorem C99_result (hR : Rigid R) {P P' : Problem} (hP : Turned R P P') (hw : WellPosed G nodes P.world)
    (hs : GroupSource G P.world P.source) (hd : Configured P.source.direction)
    (ht : ∀ c ∈ P.world.cells, CanTurn R c) (hinit : FreshSet P.init) (hth : 1 ≤ P.threads)
    (hth' : 1 ≤ P'.threads) (hb : 1 ≤ P.batchsize) {fuel fuel' elapsed elapsed' : ℕ}
    {r r' : EstimatorSet} (h : SolveResult P fuel 0 r elapsed) (h' : SolveResult P' fuel' 0 r' elapsed') :
    ∃ a b a' b' c g, FirstCell P.world P.source.position c ∧ P.source.energy = .group g ∧
      ∀ (k : ℕ) (e : Estimator), P.init.estimators[k]? = some e →
        ∃ o o' : Estimator, r.estimators[k]? = some o ∧ r'.estimators[k]? = some o' ∧
          o.base.name = e.base.name ∧ o'.base.name = e.base.name ∧
          ∀ i < e.base.bins.size,
            (o.base.means P.batchsize)[i]? = some (.ok (mean (sample (fun k =>
              (played generator G nodes P (currentHit e.surface e.base.bins i) a b c g
                (Rng.ofSeed (P.seed + k))).toReal) P.batchsize))) ∧
            (o.base.stdDevs P.batchsize)[i]? = some (.ok (standardError (sample (fun k =>
              (played generator G nodes P (currentHit e.surface e.base.bins i) a b c g
                (Rng.ofSeed (P.seed + k))).toReal) P.batchsize))) ∧
            (o'.base.means P.batchsize)[i]? = some (.ok (mean (sample (fun k =>
              (played generator G nodes P' (currentHit (turnSurface R e.surface)
                (turnBins R e.base.bins) i) a' b' (turnCell R c) g
                (Rng.ofSeed (P'.seed + k))).toReal) P.batchsize))) ∧
            (o'.base.stdDevs P.batchsize)[i]? = some (.ok (standardError (sample (fun k =>
              (played generator G nodes P' (currentHit (turnSurface R e.surface)
                (turnBins R e.base.bins) i) a' b' (turnCell R c) g
                (Rng.ofSeed (P'.seed + k))).toReal) P.batchsize))) ∧
            SameLaw (played endless G nodes P (currentHit e.surface e.base.bins i) a b c g)
              (played endless G nodes P' (currentHit (turnSurface R e.surface)
                (turnBins R e.base.bins) i) a' b' (turnCell R c) g) := by
  obtain ⟨hw', hs', hd', hcell⟩ := C99_problem hR hP hw hs hd ht
  have hinit' : FreshSet P'.init := hP.estimators ▸ turn_fresh R hinit
  obtain ⟨a, b, c, g, f1, f2, f3, f4⟩ := C79_result hw hs hd hinit hth hb h
  obtain ⟨a', b', c', g', f1', f2', f3', f4'⟩ := C79_result hw' hs' hd' hinit' hth'
    (hP.histories ▸ hb) h'
  obtain rfl : c' = turnCell R c :=
    Option.some.inj ((cellAt_of_first f2').symm.trans (cellAt_of_first (hcell c f2)))
  obtain rfl : g' = g := by
    rw [hP.source] at f3'
    have : P.source.energy = .group g' := f3'
    rw [f3] at this
    cases this
    rfl
  have hc : c ∈ P.world.cells := cellAt_mem (cellAt_of_first f2)
  obtain ⟨hlen, hget⟩ := List.forall₂_iff_get.1 f4
  obtain ⟨hlen', hget'⟩ := List.forall₂_iff_get.1 f4'
  refine ⟨a, b, a', b', c, g', f2, f3, fun k e he => ?_⟩
  obtain ⟨hk, hek⟩ := List.getElem?_eq_some_iff.1 he
  have hk' : k < P'.init.estimators.length := by
    rw [hP.estimators]
    simpa [turnSet] using hk
  have hek' : P'.init.estimators[k] = turnEstimator R e := by
    have : P'.init.estimators[k]? = some (turnEstimator R e) := by
      rw [hP.estimators]
      simp only [turnSet, List.getElem?_map, he, Option.map_some]
    exact (List.getElem?_eq_some_iff.1 this).2
  obtain ⟨n1, p1⟩ := hget k hk (hlen ▸ hk)
  obtain ⟨n2, p2⟩ := hget' k hk' (hlen' ▸ hk')
  simp only [List.get_eq_getElem] at n1 p1 n2 p2
  rw [hek] at n1 p1
  rw [hek'] at n2 p2
  refine ⟨_, _, List.getElem?_eq_getElem (hlen ▸ hk), List.getElem?_eq_getElem (hlen' ▸ hk'), n1, n2,
    fun i hi => ?_⟩
  obtain ⟨m1, s1⟩ := p1 i hi
  obtain ⟨m2, s2⟩ := p2 i hi
  rw [hP.histories] at m2 s2
  exact ⟨m1, s1, m2, s2, C99_score hR hP hw hd ht e.surface e.base.bins i f1 f1' hc g'⟩

/-- **C99** Only the distributions are the same.  With the same seed the source that is turned emits in
the same direction as before, not in the turned one, so the histories of the two problems are others. -/
theorem C99_only_distribution (s : Source) (hs : s.direction = .isotropic) (seed : ℕ) :
    ∃ R, Rigid R ∧ ∃ bo bo' : Born, s.sample seed = .ok bo ∧ (turnSource R s).sample seed = .ok bo' ∧
      bo'.direction ≠ R bo.direction := by
  obtain ⟨bo, hbo, hu⟩ : ∃ bo, s.sample seed = .ok bo ∧ UnitVec bo.direction := by
    unfold Source.sample DirectionDist.sample
    rw [hs]
    exact ⟨_, rfl, isotropic_unit (Rng.valid_ofSeed seed)⟩
  have this : ∀ R, (turnSource R s).sample seed = .ok { bo with position := R s.position } := by
    intro R
    have e : (turnSource R s).direction = .isotropic := by
      change turnDist _ s.direction = _
      rw [hs]
      rfl
    unfold Source.sample DirectionDist.sample at hbo ⊢
    rw [hs] at hbo
    rw [e]
    cases hbo
    rfl
  have h1 : cosAngle bo.direction bo.direction = 1 := by
    unfold UnitVec at hu
    unfold cosAngle
    linarith
  have h0 : cosAngle bo.direction bo.direction ≠ 0 := by
    rw [h1]
    exact one_ne_zero
  refine ⟨mirrored bo.direction, C99_mirror h0, bo, { bo with position := mirrored bo.direction s.position },
    hbo, ?_, fun h => ?_⟩
  · exact this (mirrored bo.direction)
  · have h3 : bo.direction = mirrored bo.direction bo.direction := h
    have h2 : cosAngle bo.direction bo.direction = cosAngle bo.direction (mirrored bo.direction bo.direction) :=
      congrArg _ h3
    unfold mirrored along at h2
    rw [mul_div_assoc, div_self h0] at h2
    unfold cosAngle at h1 h2
    dsimp only at h2
    linarith

/-! ### Consequences -/

theorem rigid_id : Rigid id := ⟨fun _ _ _ => rfl, fun _ _ => rfl⟩

theorem turnShape_id (s : Surface) : turnShape id s = s := by cases s <;> rfl

theorem turnSurface_id (s : SurfaceObj) : turnSurface id s = s := by
  unfold turnSurface
  rw [turnShape_id]

theorem turnCell_id (c : Cell) : turnCell id c = c := by
  have h1 : (c.surfaceSenses.map fun e => (turnSurface id e.1, e.2)) = c.surfaceSenses := by
    simp only [turnSurface_id]
    exact List.map_id _
  have h2 : turnField id c.temperature = c.temperature := by cases c.temperature <;> rfl
  unfold turnCell
  rw [h1, h2]

theorem turnWorld_id (w : World) : turnWorld id w = w := by
  have h1 : w.surfaces.map (turnSurface id) = w.surfaces := by
    rw [show turnSurface id = id from funext turnSurface_id]
    exact List.map_id _
  have h2 : turnField id w.temperature = w.temperature := by cases w.temperature <;> rfl
  have h3 : w.cells.map (turnCell id) = w.cells := by
    rw [show turnCell id = id from funext turnCell_id]
    exact List.map_id _
  unfold turnWorld
  rw [h1, h2, h3]

theorem turnBins_id (b : ParticleBins) : turnBins id b = b := by
  unfold turnBins
  rw [Option.map_id]
  rfl

/-- **C99** The tracking method does not change the distribution of scores. -/
theorem C99_methods {P : Problem} (hw : WellPosed G nodes P.world) (hd : Configured P.source.direction)
    (method' : Method) (surface : SurfaceObj) (bins : ParticleBins) (i : ℕ) {a b : Direction}
    (hf : ∀ r, P.source.direction = .isotropicFlux r → Frame a b r) {c : Cell} (hc : c ∈ P.world.cells)
    (g : ℕ) :
    SameLaw (played endless G nodes P (currentHit surface bins i) a b c g)
      (played endless G nodes { P with method := method' } (currentHit surface bins i) a b c g) := by
  have hP : Turned id P { P with method := method', init := turnSet id P.init } := by
    refine ⟨(turnWorld_id _).symm, ?_, rfl, rfl⟩
    unfold turnSource
    have : turnDist id P.source.direction = P.source.direction := by cases P.source.direction <;> rfl
    rw [this]
    rfl
  have h := C99_score rigid_id hP hw hd (fun c _ => Or.inl rfl) surface bins i hf hf hc g
  rwa [turnSurface_id, turnBins_id, turnCell_id] at h

theorem mirrored_across {r r' : Direction} (hr : UnitVec r) (hr' : UnitVec r') (hne : r ≠ r') :
    cosAngle (r - r') (r - r') ≠ 0 ∧ mirrored (r - r') r = r' := by
  have h0 : cosAngle (r - r') (r - r') ≠ 0 := by
    intro h
    have : (r.x - r'.x) ^ 2 + (r.y - r'.y) ^ 2 + (r.z - r'.z) ^ 2 = 0 := by
      have e : cosAngle (r - r') (r - r') =
        (r.x - r'.x) * (r.x - r'.x) + (r.y - r'.y) * (r.y - r'.y) + (r.z - r'.z) * (r.z - r'.z) := rfl
      rw [e] at h
      linarith [h]
    obtain ⟨h1, h2, h3⟩ := squares_zero this
    exact hne (Point.ext (sub_eq_zero.1 h1) (sub_eq_zero.1 h2) (sub_eq_zero.1 h3))
  refine ⟨h0, ?_⟩
  have h1 : 2 * cosAngle (r - r') r / cosAngle (r - r') (r - r') = 1 := by
    rw [div_eq_one_iff_eq h0]
    have e : cosAngle (r - r') (r - r') =
        (r.x - r'.x) * (r.x - r'.x) + (r.y - r'.y) * (r.y - r'.y) + (r.z - r'.z) * (r.z - r'.z) := rfl
    have e' : cosAngle (r - r') r = (r.x - r'.x) * r.x + (r.y - r'.y) * r.y + (r.z - r'.z) * r.z := rfl
    rw [e, e']
    unfold UnitVec at hr hr'
    linear_combination hr - hr'
  unfold mirrored
  rw [h1]
  have e : r - r' = ⟨r.x - r'.x, r.y - r'.y, r.z - r'.z⟩ := rfl
  unfold along
  rw [e]
  ext <;> dsimp only <;> ring

theorem around_turn (hR : Rigid R) {w : World} (h : AroundOrigin w) : turnWorld R w = w := by
  have hs : ∀ s : SurfaceObj, (∃ radius, s.shape = .sphere ⟨0, 0, 0⟩ radius) → turnSurface R s = s := by
    rintro ⟨i, n, shape⟩ ⟨radius, rfl⟩
    unfold turnSurface turnShape
    dsimp only
    rw [rigid_zero hR]
  have h1 : w.surfaces.map (turnSurface R) = w.surfaces := by
    conv_rhs => rw [← List.map_id w.surfaces]
    exact List.map_congr_left fun s hm => hs s (h.surfaces s hm)
  have h2 : turnField R w.temperature = w.temperature := by
    obtain ⟨t, ht⟩ := h.uniform'
    rw [ht]
    rfl
  have h3 : w.cells.map (turnCell R) = w.cells := by
    conv_rhs => rw [← List.map_id w.cells]
    refine List.map_congr_left fun c hc => ?_
    have h4 : (c.surfaceSenses.map fun e => (turnSurface R e.1, e.2)) = c.surfaceSenses := by
      conv_rhs => rw [← List.map_id c.surfaceSenses]
      refine List.map_congr_left fun e he => ?_
      rw [hs e.1 (h.cells c hc e he)]
      rfl
    have h5 : turnField R c.temperature = c.temperature := by
      obtain ⟨t, ht⟩ := h.uniform c hc
      rw [ht]
      rfl
    unfold turnCell
    rw [h4, h5]
    rfl
  unfold turnWorld
  rw [h1, h2, h3]

/-- **C99** If there are only balls around the origin and a source there that emits in all directions
alike, then no direction is different from the others: the current through a ball, by the cosine with a
reference direction, has the same distribution for all reference directions. -/
theorem C99_no_direction {P : Problem} (hw : WellPosed G nodes P.world) (hball : AroundOrigin P.world)
    (hpos : P.source.position = ⟨0, 0, 0⟩) (hdir : P.source.direction = .isotropic)
    {surface : SurfaceObj} (hs : surface ∈ P.world.surfaces) (bins : ParticleBins) (i : ℕ)
    {r r' : Direction} (hr : UnitVec r) (hr' : UnitVec r') (a b : Direction) {c : Cell}
    (hc : c ∈ P.world.cells) (g : ℕ) :
    SameLaw (played endless G nodes P (currentHit surface { bins with direction := some r } i) a b c g)
      (played endless G nodes P (currentHit surface { bins with direction := some r' } i) a b c g) := by
  rcases eq_or_ne r r' with rfl | hne
  · exact sameLaw_refl _
  obtain ⟨h0, hm⟩ := mirrored_across hr hr' hne
  have hR := C99_mirror h0
  set R := mirrored (r - r') with hRdef
  have hworld := around_turn hR hball
  have hP : Turned R P { P with init := turnSet R P.init } := by
    refine ⟨hworld.symm, ?_, rfl, rfl⟩
    unfold turnSource
    rw [hpos, hdir, rigid_zero hR]
    change P.source = { P.source with position := ⟨0, 0, 0⟩, direction := .isotropic }
    rw [← hpos, ← hdir]
  have ht : ∀ c ∈ P.world.cells, CanTurn R c := fun c hc => Or.inr fun e he => by
    obtain ⟨radius, h⟩ := hball.cells c hc e he
    exact ⟨_, radius, h⟩
  have hd : Configured P.source.direction := by
    rw [hdir]
    trivial
  have hn : ∀ x : Direction, P.source.direction = .isotropicFlux x → Frame a b x := fun x hx => by
    rw [hdir] at hx
    cases hx
  have h := C99_score hR hP hw hd ht surface { bins with direction := some r } i hn hn hc g
  have e1 : turnSurface R surface = surface := by
    obtain ⟨k, n, shape⟩ := surface
    obtain ⟨radius, rfl⟩ : ∃ radius, shape = .sphere ⟨0, 0, 0⟩ radius := hball.surfaces _ hs
    unfold turnSurface turnShape
    dsimp only
    rw [rigid_zero hR]
  have e2 : turnBins R { bins with direction := some r } = { bins with direction := some r' } := by
    unfold turnBins
    dsimp only [Option.map_some]
    rw [hm]
  have e3 : turnCell R c = c := by
    have : turnCell R c ∈ [turnCell R c] := by simp
    have hcells : P.world.cells.map (turnCell R) = P.world.cells := congrArg World.cells hworld
    obtain ⟨k, hk, rfl⟩ := List.getElem_of_mem hc
    have := congrArg (fun l => l[k]?) hcells
    simp only [List.getElem?_map, List.getElem?_eq_getElem hk, Option.map_some] at this
    exact Option.some.inj this
  rw [e1, e2, e3] at h
  exact h

/-! ### Instances -/

/-- The ball of coal turned by `R`, with another tracking method. -/
noncomputable def turnedCoal (R : Point → Point) (method : Method) : Problem :=
  { coalProblem method with
    world := turnWorld R (coalProblem method).world
    init := turnSet R (coalProblem method).init
    source := turnSource R (coalProblem method).source }

/-- A flux through any direction instead of the x axis, and delta tracking instead of surface tracking:
the current in the bins of every reference direction. -/
theorem example_turned_coal {r : Direction} (hr : UnitVec r) (hne : r ≠ ⟨1, 0, 0⟩) :
    ∃ R, Rigid R ∧ (turnedCoal R .cellDeltaTracking).source.direction = .isotropicFlux r ∧
      (turnedCoal R .cellDeltaTracking).source.position = ⟨0, 0, 0⟩ ∧
      (turnedCoal R .cellDeltaTracking).world = (coalProblem .cellDeltaTracking).world ∧
      ∀ (bins : ParticleBins) (i : ℕ) (a' b' : Direction), Frame a' b' r →
        SameLaw (played endless 1 (fun _ => coalNodes) (coalProblem .surfaceTracking)
            (currentHit (ball 1 1) bins i) ⟨0, 1, 0⟩ ⟨0, 0, 1⟩ coalIn 1)
          (played endless 1 (fun _ => coalNodes) (turnedCoal R .cellDeltaTracking)
            (currentHit (ball 1 1) (turnBins R bins) i) a' b' coalIn 1) := by
  have ux : UnitVec ⟨1, 0, 0⟩ := by unfold UnitVec; norm_num
  obtain ⟨h0, hm⟩ := mirrored_across ux hr hne.symm
  have hR := C99_mirror h0
  set R := mirrored (⟨1, 0, 0⟩ - r) with hRdef
  have hsurf : turnSurface R (ball 1 1) = ball 1 1 := by
    unfold turnSurface turnShape ball
    dsimp only
    rw [rigid_zero hR]
  have hball : AroundOrigin (coalProblem .surfaceTracking).world := by
    refine ⟨?_, ?_, ?_, ⟨300, rfl⟩⟩
    · intro s hs
      simp only [coalProblem, List.mem_cons, List.not_mem_nil, or_false] at hs
      subst hs
      exact ⟨_, rfl⟩
    · intro c hc e he
      simp only [coalProblem, List.mem_cons, List.not_mem_nil, or_false] at hc
      rcases hc with rfl | rfl <;>
        simp only [coalIn, fogOut, List.mem_cons, List.not_mem_nil, or_false] at he <;> subst he <;>
        exact ⟨_, rfl⟩
    · intro c hc
      simp only [coalProblem, List.mem_cons, List.not_mem_nil, or_false] at hc
      rcases hc with rfl | rfl <;> exact ⟨300, rfl⟩
  have hworld := around_turn hR hball
  have hP : Turned R (coalProblem .surfaceTracking) (turnedCoal R .cellDeltaTracking) := ⟨rfl, rfl, rfl, rfl⟩
  have ht : ∀ c ∈ (coalProblem .surfaceTracking).world.cells, CanTurn R c := fun c hc => Or.inr fun e he => by
    obtain ⟨radius, h⟩ := hball.cells c hc e he
    exact ⟨_, radius, h⟩
  have hdirection : (turnedCoal R .cellDeltaTracking).source.direction = .isotropicFlux r := by
    change DirectionDist.isotropicFlux (R ⟨1, 0, 0⟩) = _
    rw [hm]
  refine ⟨R, hR, hdirection, rigid_zero hR, hworld, fun bins i a' b' hf => ?_⟩
  have hcell : turnCell R coalIn = coalIn := by
    have := congrArg World.cells hworld
    exact (List.cons.inj this).1
  have h := C99_score (G := 1) (nodes := fun _ => coalNodes) hR hP (coal_wellPosed .surfaceTracking) ux ht
    (ball 1 1) bins i (a := ⟨0, 1, 0⟩) (b := ⟨0, 0, 1⟩) (a' := a') (b' := b')
    (fun x hx => by cases hx; exact coal_frame)
    (fun x hx => by rw [hdirection] at hx; cases hx; exact hf)
    (c := coalIn) (by simp [coalProblem]) 1
  rwa [hsurf, hcell] at h

end Minimc.Props
