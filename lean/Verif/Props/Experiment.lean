import Verif.Lemmas.ChainVariance
import Verif.Lemmas.Experiment
import Verif.Lemmas.Statistics
import Verif.Props.Driver
import Verif.Props.Score

/-! # Properties: a run as an experiment (C79) -/

namespace Minimc.Props

open Classical Spec MeasureTheory ProbabilityTheory Filter Topology
open scoped ENNReal

/-! ### The source -/

/-- The source emits by the same rules for every seed. -/
theorem source_emits (s : Source) (hd : Configured s.direction) :
    ∃ a b : Direction, (∀ r, s.direction = .isotropicFlux r → Frame a b r) ∧
      ∀ seed bo, s.sample seed = .ok bo → ∀ start : Direction → ℕ → ℝ≥0∞,
        start bo.direction (Rng.ofSeed bo.seed) =
          emitted generator a b s.direction start (Rng.ofSeed seed) := by
  cases hdir : s.direction with
  | constant d =>
    refine ⟨d, d, by simp, ?_⟩
    intro seed bo h start
    unfold Source.sample DirectionDist.sample at h
    rw [hdir] at h
    cases h
    rfl
  | isotropic =>
    refine ⟨⟨1, 0, 0⟩, ⟨1, 0, 0⟩, by simp, ?_⟩
    intro seed bo h start
    unfold Source.sample DirectionDist.sample at h
    rw [hdir] at h
    cases h
    unfold emitted
    dsimp only
    have h := isotropic_eq (Rng.ofSeed seed)
    exact congrArg (fun d => start d _) h
  | isotropicFlux r =>
    rw [hdir] at hd
    obtain ⟨a, b, h1, h2, h3, h4, h5, h6, h⟩ := Direction.rotated_ok (d := r) hd
    refine ⟨a, b, ?_, ?_⟩
    · intro r' hr'
      cases hr'
      exact ⟨h1, h2, h3, h4, h5, h6⟩
    · intro seed bo ho start
      have hv := Rng.valid_ofSeed seed
      unfold Source.sample DirectionDist.sample isotropicFluxOf at ho
      rw [hdir] at ho
      have hu0 := Rng.canonical_pos hv
      have hu1 := Rng.canonical_lt_one hv
      have hs1 : Real.sqrt (Rng.canonical (Rng.ofSeed seed)).1 ≤ 1 := Real.sqrt_le_one.2 hu1.le
      dsimp only at ho
      rw [h _ _ (by linarith [Real.sqrt_nonneg (Rng.canonical (Rng.ofSeed seed)).1]) hs1] at ho
      simp only [Bind.bind, Except.bind, Except.ok.injEq] at ho
      subst ho
      unfold emitted
      dsimp only
      have hdir' : tilted a b r (Real.sqrt (generator.numbers (Rng.ofSeed seed) 0))
          (generator.numbers (Rng.ofSeed seed) 1) =
          a.smul (Real.sqrt (1 - Real.sqrt (Rng.canonical (Rng.ofSeed seed)).1 *
              Real.sqrt (Rng.canonical (Rng.ofSeed seed)).1) *
              Real.cos ((Rng.canonical (Rng.canonical (Rng.ofSeed seed)).2).1 *
                (2 * Real.pi - 0) + 0)) +
            b.smul (Real.sqrt (1 - Real.sqrt (Rng.canonical (Rng.ofSeed seed)).1 *
              Real.sqrt (Rng.canonical (Rng.ofSeed seed)).1) *
              Real.sin ((Rng.canonical (Rng.canonical (Rng.ofSeed seed)).2).1 *
                (2 * Real.pi - 0) + 0)) +
            r.smul (Real.sqrt (Rng.canonical (Rng.ofSeed seed)).1) := by
        have n0 : generator.numbers (Rng.ofSeed seed) 0 = (Rng.canonical (Rng.ofSeed seed)).1 := rfl
        have n1 : generator.numbers (Rng.ofSeed seed) 1 =
          (Rng.canonical (Rng.canonical (Rng.ofSeed seed)).2).1 := rfl
        rw [n0, n1]
        have ha : ∀ v : ℝ, v * (2 * Real.pi - 0) + 0 = 2 * Real.pi * v := fun v => by ring
        rw [ha]
        simp only [tilted, sq]
        ext <;> simp only [Point.smul, Point.add_x, Point.add_y, Point.add_z] <;> ring
      rw [hdir']
      rfl

/-- **C79** What the current estimator counts in history `e` is the score of a game that is played with
the generator that starts at the seed plus `e`: the source emits a neutron, and it and its descendants
fly, scatter and cause fission.  The game, its frame, its cell and its group are the same for all
histories, all estimators and all bins. -/
theorem C79_history {G : ℕ} {nodes : Nuclide → List MgNode} {P : Problem}
    (hw : WellPosed G nodes P.world) (hs : GroupSource G P.world P.source)
    (hd : Configured P.source.direction) :
    ∃ a b c g, (∀ r, P.source.direction = .isotropicFlux r → Frame a b r) ∧
      FirstCell P.world P.source.position c ∧ P.source.energy = .group g ∧
      ∀ fuel e states, P.history fuel e = .ok states → ∀ surface bins i,
        (crossings surface bins states i : ℝ≥0∞) =
          played generator G nodes P (currentHit surface bins i) a b c g (Rng.ofSeed (P.seed + e)) := by
  obtain ⟨g, g1, g2, g3⟩ := hs.group
  obtain ⟨c, hc, hm'⟩ := hs.place
  obtain ⟨a, b, hf, hab⟩ := source_emits P.source hd
  refine ⟨a, b, c, g, hf, hc, g1, ?_⟩
  intro fuel e states h surface bins i
  obtain ⟨bo, c', g', k1, k2, k3, k4⟩ := C78_history hw hs hd h surface bins i
  obtain rfl : c' = c := by
    have := (cellAt_of_first k2).symm.trans (cellAt_of_first hc)
    exact Option.some.inj this
  obtain rfl : g' = g := by
    rw [g1] at k3
    cases k3
    rfl
  rw [k4]
  exact hab (P.seed + e) bo k1 fun d s => ⨆ n, chainScore generator G nodes P.world P.method
    (currentHit surface bins i) n c' P.source.position d g' s

/-- **C79** What a run prints for every bin of every current estimator: the mean of the scores of the
games of its histories and the standard error of that mean, whatever the number of threads and the
schedule. -/
theorem C79_result {G : ℕ} {nodes : Nuclide → List MgNode} {P : Problem}
    (hw : WellPosed G nodes P.world) (hs : GroupSource G P.world P.source)
    (hd : Configured P.source.direction) (hinit : FreshSet P.init) (ht : 1 ≤ P.threads)
    (hb : 1 ≤ P.batchsize) {fuel elapsed' : ℕ} {r : EstimatorSet}
    (h : SolveResult P fuel 0 r elapsed') :
    ∃ a b c g, (∀ r, P.source.direction = .isotropicFlux r → Frame a b r) ∧
      FirstCell P.world P.source.position c ∧ P.source.energy = .group g ∧
      List.Forall₂ (fun e e' : Estimator => e'.base.name = e.base.name ∧
        ∀ i < e.base.bins.size,
          (e'.base.means P.batchsize)[i]? = some (.ok (mean (sample (fun k =>
            (played generator G nodes P (currentHit e.surface e.base.bins i) a b c g
              (Rng.ofSeed (P.seed + k))).toReal) P.batchsize))) ∧
          (e'.base.stdDevs P.batchsize)[i]? = some (.ok (standardError (sample (fun k =>
            (played generator G nodes P (currentHit e.surface e.base.bins i) a b c g
              (Rng.ofSeed (P.seed + k))).toReal) P.batchsize))))
        P.init.estimators r.estimators := by
  obtain ⟨a, b, c, g, h1, h2, h3, h4⟩ := C79_history hw hs hd
  refine ⟨a, b, c, g, h1, h2, h3, ?_⟩
  obtain ⟨hists, hl, hh, hr⟩ := C32_as_if_sequential hinit ht h
  have hne : hists ≠ [] := by
    rintro rfl
    simp at hl
    omega
  have hp := C35_printed hinit.shaped hinit.bins hinit.zero hne hr
  refine hp.imp fun e e' ⟨k1, _, _, k2, _⟩ => ⟨k1, fun i hi => ?_⟩
  obtain ⟨m1, m2⟩ := k2 i hi
  have hmap : hists.map (historyScore e.base.bins
      (fun p => if Crossed e.surface p then 1 else 0) · i) = sample (fun k =>
        (played generator G nodes P (currentHit e.surface e.base.bins i) a b c g
          (Rng.ofSeed (P.seed + k))).toReal) P.batchsize := by
    unfold sample
    apply List.ext_getElem
    · simp [hl]
    · intro k hk hk'
      simp only [List.getElem_map, List.getElem_range]
      have hk2 : k < hists.length := by simpa using hk
      rw [historyScore_crossings, ← h4 fuel k hists[k] (hh k _ (List.getElem?_eq_getElem hk2))]
      simp
  rw [hmap, hl] at m1 m2
  exact ⟨m1, m2⟩

/-! ### The mean -/

theorem measurable_all_rounds (G : ℕ) (nodes : Nuclide → List MgNode) (w : World) (method : Method)
    {hit : SurfaceObj → Direction → ℕ → ℝ≥0∞} (hh : ∀ s g, Measurable fun d => hit s d g) (c : Cell)
    (x : Point) (g : ℕ) : Measurable fun q : Direction × (ℕ → ℝ) =>
      ⨆ n, chainScore endless G nodes w method hit n c x q.1 g q.2 :=
  Measurable.iSup fun n => measurable_next_us G nodes w method hh n c x g

/-- **C79** With independent numbers, the mean score of a history is the mean, over the directions of
the source, of the solution of the integral transport equation of C78 at the source. -/
theorem C79_mean (G : ℕ) (nodes : Nuclide → List MgNode) (P : Problem)
    {hit : SurfaceObj → Direction → ℕ → ℝ≥0∞} (hh : ∀ s g, Measurable fun d => hit s d g)
    (a b : Direction) (c : Cell) (g : ℕ) :
    ∫⁻ us, played endless G nodes P hit a b c g us ∂uniforms =
      emittedMean a b P.source.direction fun d =>
        meanChain G nodes P.world P.method hit c P.source.position d g :=
  lintegral_emitted a b P.source.direction
    (measurable_all_rounds G nodes P.world P.method hh c P.source.position g)

/-! ### The mean square -/

theorem tilted_unit {a b r : Direction} (hr : UnitVec r) (hf : Frame a b r) {c : ℝ} (h0 : -1 ≤ c)
    (h1 : c ≤ 1) (t : ℝ) : UnitVec (tilted a b r c t) := by
  obtain ⟨ha, hb, hra, hrb, hab, -⟩ := hf
  have hs2 : Real.sqrt (1 - c ^ 2) ^ 2 = 1 - c ^ 2 := Real.sq_sqrt (by nlinarith)
  have hc := Real.cos_sq_add_sin_sq (2 * Real.pi * t)
  unfold tilted
  generalize Real.sqrt (1 - c ^ 2) = s at *
  generalize Real.cos (2 * Real.pi * t) = x at *
  generalize Real.sin (2 * Real.pi * t) = y at *
  unfold UnitVec cosAngle at *
  dsimp only
  linear_combination s ^ 2 * x ^ 2 * ha + s ^ 2 * y ^ 2 * hb + c ^ 2 * hr + 2 * s ^ 2 * x * y * hab +
    2 * s * x * c * hra + 2 * s * y * c * hrb + s ^ 2 * hc + hs2

theorem emittedMean_mono {a b : Direction} {dist : DirectionDist} (hd : Configured dist)
    (hf : ∀ r, dist = .isotropicFlux r → Frame a b r) {F F' : Direction → ℝ≥0∞}
    (h : ∀ d, UnitVec d → F d ≤ F' d) : emittedMean a b dist F ≤ emittedMean a b dist F' := by
  cases dist with
  | constant d => exact h d hd
  | isotropic => exact sphereMean_mono' h
  | isotropicFlux r =>
    refine setLIntegral_mono' measurableSet_Ioo fun c hc => mul_le_mul_right (lintegral_mono fun t => ?_) _
    exact h _ (tilted_unit hd (hf r rfl) (by linarith [hc.1]) hc.2.le t)

theorem emitted_sq {σ : Type} (S : Supply σ) (a b : Direction) (dist : DirectionDist)
    (start : Direction → σ → ℝ≥0∞) (s : σ) :
    emitted S a b dist start s ^ 2 = emitted S a b dist (fun d s => start d s ^ 2) s := by
  cases dist <;> rfl

theorem emitted_affine {σ : Type} (S : Supply σ) (a b : Direction) (dist : DirectionDist)
    (start : Direction → σ → ℝ≥0∞) (k q : ℝ≥0∞) (s : σ) :
    emitted S a b dist (fun d s => k * start d s + q) s = k * emitted S a b dist start s + q := by
  cases dist <;> rfl

theorem lintegral_rounds_sq {G : ℕ} {nodes : Nuclide → List MgNode} {w : World} {method : Method}
    {hit : SurfaceObj → Direction → ℕ → ℝ≥0∞} (hh : ∀ s g, Measurable fun d => hit s d g) (c : Cell)
    (x : Point) (d : Direction) (g : ℕ) :
    ∫⁻ us, (⨆ n, chainScore endless G nodes w method hit n c x d g us) ^ 2 ∂uniforms =
      ⨆ n, chainSquare G nodes w method hit n c x d g := by
  unfold chainSquare
  rw [← lintegral_iSup]
  · refine lintegral_congr fun us => ?_
    exact (Monotone.map_iSup_of_continuousAt (f := fun t : ℝ≥0∞ => t ^ 2)
      (ENNReal.continuous_pow 2).continuousAt (fun _ _ h => pow_le_pow_left' h 2) (by simp))
  · intro n
    exact ((measurable_next_us G nodes w method hh n c x g).comp
      (f := fun us : ℕ → ℝ => (d, us)) (measurable_const.prodMk measurable_id)).pow_const 2
  · intro n n' h us
    exact pow_le_pow_left' (chainScore_monotone c x d g us h) 2

theorem square_budget {T F t K M N κ : ℝ} (hT : 0 ≤ T) (hF : 0 ≤ F) (ht : 0 ≤ t) (hK : 0 ≤ K)
    (hNM : 0 ≤ N * M ^ 2) (hM : 0 ≤ M) (hN : 0 ≤ N) (hs : T + F ≤ κ * t)
    (hKe : K * (1 - κ) = κ * (N * M ^ 2)) :
    ENNReal.ofReal T * ENNReal.ofReal K +
      ENNReal.ofReal F * (ENNReal.ofReal K + ENNReal.ofReal N * ENNReal.ofReal M ^ 2) ≤
        ENNReal.ofReal t * ENNReal.ofReal K := by
  rw [← ENNReal.ofReal_pow hM, ← ENNReal.ofReal_mul hN, ← ENNReal.ofReal_add hK hNM,
    ← ENNReal.ofReal_mul hT, ← ENNReal.ofReal_mul hF, ← ENNReal.ofReal_mul ht,
    ← ENNReal.ofReal_add (mul_nonneg hT hK) (mul_nonneg hF (add_nonneg hK hNM))]
  refine ENNReal.ofReal_le_ofReal ?_
  have a1 : (T + F) * K ≤ κ * t * K := mul_le_mul_of_nonneg_right hs hK
  have a2 : F * (N * M ^ 2) ≤ κ * t * (N * M ^ 2) := mul_le_mul_of_nonneg_right (by linarith) hNM
  have a3 : t * (K * (1 - κ)) = t * (κ * (N * M ^ 2)) := by rw [hKe]
  linarith

/-- **C79** A bound for the mean square of the score of a history.  `S` holds the places that neutrons
can be at; at most `N` neutrons are born in a fission on average, and a neutron scores at most `M` on
average. -/
theorem C79_second_moment {G : ℕ} {nodes : Nuclide → List MgNode} {P : Problem}
    (hw : WellPosed G nodes P.world) (hd : Configured P.source.direction)
    {hit : SurfaceObj → Direction → ℕ → ℝ≥0∞} (hh : ∀ s g, Measurable fun d => hit s d g)
    (hone : ∀ s d g, hit s d g ≤ 1) {S : Cell → Point → Prop}
    (hstay : ∀ c ∈ P.world.cells, c.material ≠ none → ∀ x d (s : ℝ), S c x → UnitVec d → 0 < s →
      (s : WithTop ℝ) < ahead c x d → S c (along x d s) ∧
        ∀ c', cellAt P.world (along x d s) = some c' → S c' (along x d s))
    (hnext : ∀ c ∈ P.world.cells, c.material ≠ none → ∀ x d, S c x → UnitVec d → ahead c x d ≠ ⊤ →
      ∀ s c', faced c x d = some s → cellAt P.world (beyond c x d) = some c' → S c' (beyond c x d))
    {M N κ : ℝ} (hM0 : 0 ≤ M) (hN0 : 0 ≤ N) (hκ0 : 0 ≤ κ) (hκ1 : κ < 1)
    (hM : ∀ c ∈ P.world.cells, ∀ x d, S c x → UnitVec d → ∀ g, 1 ≤ g → g ≤ G →
      meanChain G nodes P.world P.method hit c x d g ≤ ENNReal.ofReal M)
    (hN : ∀ c ∈ P.world.cells, ∀ m, c.material = some m → ∀ e ∈ m.afracs, ∀ g, 1 ≤ g → g ≤ G →
      entry1 (nubarTable (nodes e.1)) g ≤ N)
    (hκ : ∀ c ∈ P.world.cells, ∀ m, c.material = some m → ∀ g, 1 ≤ g → g ≤ G →
      ∑ g' ∈ Finset.Icc 1 G, (transferRate G nodes m g g' + fissionRate G nodes m g g') ≤
        κ * macroscopic G nodes g m)
    {a b : Direction} (hf : ∀ r, P.source.direction = .isotropicFlux r → Frame a b r) {c : Cell}
    (hc : c ∈ P.world.cells) (hx : S c P.source.position) {g : ℕ} (h1 : 1 ≤ g) (h2 : g ≤ G) :
    ∫⁻ us, played endless G nodes P hit a b c g us ^ 2 ∂uniforms ≤
      ENNReal.ofReal (1 + 2 * M) * (∫⁻ us, played endless G nodes P hit a b c g us ∂uniforms) +
        ENNReal.ofReal (κ * N * M ^ 2 / (1 - κ)) := by
  set K : ℝ := κ * N * M ^ 2 / (1 - κ) with hK
  have hK0 : 0 ≤ K := by
    have : 0 < 1 - κ := by linarith
    positivity
  have hk' : ∀ c ∈ P.world.cells, ∀ m, c.material = some m → ∀ g, 1 ≤ g → g ≤ G →
      (∑ g' ∈ Finset.Icc 1 G, ENNReal.ofReal (transferRate G nodes m g g')) * ENNReal.ofReal K +
        (∑ g' ∈ Finset.Icc 1 G, ENNReal.ofReal (fissionRate G nodes m g g')) *
          (ENNReal.ofReal K + ENNReal.ofReal N * ENNReal.ofReal M ^ 2) ≤
        ENNReal.ofReal (macroscopic G nodes g m) * ENNReal.ofReal K := by
    intro c hc m hm g h1 h2
    have hden := (hw.density c hc m hm).le
    have hfr : ∀ e ∈ m.afracs, 0 ≤ e.2 := fun e he => (hw.data c hc m hm e he).1.le
    have hnn : ∀ e ∈ m.afracs, NonnegNodes (nodes e.1) := fun e he => by
      obtain ⟨_, _, _, _, h, _⟩ := hw.data c hc m hm e he
      exact h
    have ht0 : ∀ g' ∈ Finset.Icc 1 G, 0 ≤ transferRate G nodes m g g' := fun g' _ =>
      transferRate_nonneg hden hfr hnn g g'
    have hf0 : ∀ g' ∈ Finset.Icc 1 G, 0 ≤ fissionRate G nodes m g g' := fun g' _ =>
      fissionRate_nonneg hden hfr hnn g g'
    have hs := hκ c hc m hm g h1 h2
    rw [Finset.sum_add_distrib] at hs
    rw [← ENNReal.ofReal_sum_of_nonneg ht0, ← ENNReal.ofReal_sum_of_nonneg hf0]
    exact square_budget (Finset.sum_nonneg ht0) (Finset.sum_nonneg hf0)
      (mul_pos (hw.density c hc m hm) (group_shares hw hc hm h1 h2)).le hK0 (by positivity) hM0 hN0 hs
      (by rw [hK, div_mul_cancel₀ _ (by linarith), mul_assoc])
  have hsq : ∀ d, UnitVec d →
      ∫⁻ us, (⨆ n, chainScore endless G nodes P.world P.method hit n c P.source.position d g us) ^ 2
        ∂uniforms ≤ ∫⁻ us, ENNReal.ofReal (1 + 2 * M) *
          (⨆ n, chainScore endless G nodes P.world P.method hit n c P.source.position d g us) +
            ENNReal.ofReal K ∂uniforms := by
    intro d hd
    have hmeas : Measurable fun us =>
        ⨆ n, chainScore endless G nodes P.world P.method hit n c P.source.position d g us :=
      (measurable_all_rounds G nodes P.world P.method hh c P.source.position g).comp
        (f := fun us : ℕ → ℝ => (d, us)) (measurable_const.prodMk measurable_id)
    rw [lintegral_rounds_sq hh, lintegral_add_right _ measurable_const, lintegral_const_mul _ hmeas,
      lintegral_const, measure_univ, mul_one]
    refine iSup_le fun n => ?_
    have := chainSquare_le (method := P.method) hw hh hone hstay hnext (M := ENNReal.ofReal M)
      (N := ENNReal.ofReal N) (K := ENNReal.ofReal K) ENNReal.ofReal_ne_top hM
      (fun c hc m hm e he g h1 h2 => ENNReal.ofReal_le_ofReal (hN c hc m hm e he g h1 h2)) hk' n hc hx hd
      h1 h2
    refine this.trans_eq ?_
    congr 2
    rw [ENNReal.ofReal_add one_pos.le (by positivity), ENNReal.ofReal_mul two_pos.le]
    simp
  have hm := measurable_all_rounds G nodes P.world P.method hh c P.source.position g
  unfold played
  simp only [emitted_sq]
  rw [lintegral_emitted a b P.source.direction (hm.pow_const 2)]
  refine (emittedMean_mono hd hf hsq).trans_eq ?_
  rw [← lintegral_emitted a b P.source.direction
    (start := fun d us => ENNReal.ofReal (1 + 2 * M) *
      (⨆ n, chainScore endless G nodes P.world P.method hit n c P.source.position d g us) +
        ENNReal.ofReal K) ((hm.const_mul _).add_const _)]
  simp only [emitted_affine]
  rw [lintegral_add_right _ measurable_const, lintegral_const_mul _ (measurable_emitted a b _ hm),
    lintegral_const, measure_univ, mul_one]

/-! ### Many histories -/

section Many

variable {G : ℕ} {nodes : Nuclide → List MgNode} {P : Problem}
  {hit : SurfaceObj → Direction → ℕ → ℝ≥0∞} {a b : Direction} {c : Cell} {g : ℕ}

theorem measurable_played (hh : ∀ s g, Measurable fun d => hit s d g) :
    Measurable (played endless G nodes P hit a b c g) :=
  measurable_emitted a b P.source.direction
    (measurable_all_rounds G nodes P.world P.method hh c P.source.position g)

theorem integral_played (hh : ∀ s g, Measurable fun d => hit s d g)
    (hfin : ∫⁻ us, played endless G nodes P hit a b c g us ∂uniforms ≠ ⊤) :
    Integrable (fun us => (played endless G nodes P hit a b c g us).toReal) uniforms ∧
      ∫ us, (played endless G nodes P hit a b c g us).toReal ∂uniforms =
        (∫⁻ us, played endless G nodes P hit a b c g us ∂uniforms).toReal :=
  ⟨integrable_toReal_of_lintegral_ne_top (measurable_played hh).aemeasurable hfin,
    integral_toReal (measurable_played hh).aemeasurable (ae_lt_top (measurable_played hh) hfin)⟩

/-- The score of a history has a finite mean square: then it has a finite mean, and its variance is the
difference of the mean square and the square of the mean. -/
theorem played_square (hh : ∀ s g, Measurable fun d => hit s d g)
    (hfin : ∫⁻ us, played endless G nodes P hit a b c g us ^ 2 ∂uniforms ≠ ⊤) :
    MemLp (fun us => (played endless G nodes P hit a b c g us).toReal) 2 uniforms ∧
      ∫⁻ us, played endless G nodes P hit a b c g us ∂uniforms ≠ ⊤ ∧
      Var[fun us => (played endless G nodes P hit a b c g us).toReal; uniforms] =
        (∫⁻ us, played endless G nodes P hit a b c g us ^ 2 ∂uniforms).toReal -
          (∫⁻ us, played endless G nodes P hit a b c g us ∂uniforms).toReal ^ 2 := by
  have hm := measurable_played (a := a) (b := b) (c := c) (g := g) (G := G) (nodes := nodes) (P := P) hh
  have hfin1 : ∫⁻ us, played endless G nodes P hit a b c g us ∂uniforms ≠ ⊤ := by
    refine ne_top_of_le_ne_top (b := 1 + ∫⁻ us, played endless G nodes P hit a b c g us ^ 2 ∂uniforms)
      (ENNReal.add_ne_top.2 ⟨ENNReal.one_ne_top, hfin⟩) ?_
    calc _ ≤ ∫⁻ us, 1 + played endless G nodes P hit a b c g us ^ 2 ∂uniforms :=
          lintegral_mono fun us => by
            rcases le_total (played endless G nodes P hit a b c g us) 1 with h | h
            · exact h.trans le_self_add
            · exact (le_self_pow h two_ne_zero).trans le_add_self
      _ = _ := by rw [lintegral_add_left measurable_const, lintegral_const, measure_univ, mul_one]
  have hi2 : Integrable (fun us => (played endless G nodes P hit a b c g us).toReal ^ 2) uniforms := by
    have := integrable_toReal_of_lintegral_ne_top (hm.pow_const 2).aemeasurable hfin
    simpa only [ENNReal.toReal_pow] using this
  have h2 : MemLp (fun us => (played endless G nodes P hit a b c g us).toReal) 2 uniforms :=
    (memLp_two_iff_integrable_sq hm.ennreal_toReal.aestronglyMeasurable).2 hi2
  refine ⟨h2, hfin1, ?_⟩
  rw [variance_eq_sub h2, (integral_played hh hfin1).2]
  congr 1
  have := integral_toReal (hm.pow_const 2).aemeasurable (ae_lt_top (hm.pow_const 2) hfin)
  simpa only [Pi.pow_apply, ENNReal.toReal_pow] using this

attribute [local irreducible] played

/-- **C79** If the histories are independent, the mean that is printed tends to the mean of the solution
of the transport equation over the directions of the source. -/
theorem C79_average (hh : ∀ s g, Measurable fun d => hit s d g)
    (hfin : (emittedMean a b P.source.direction fun d =>
      meanChain G nodes P.world P.method hit c P.source.position d g) ≠ ⊤) :
    ∀ᵐ histories ∂(Measure.infinitePi fun _ : ℕ => uniforms),
      Tendsto (fun n : ℕ => mean (sample (fun e =>
        (played endless G nodes P hit a b c g (histories e)).toReal) n)) atTop
        (𝓝 (emittedMean a b P.source.direction fun d =>
          meanChain G nodes P.world P.method hit c P.source.position d g).toReal) := by
  rw [← C79_mean G nodes P hh a b c g] at hfin ⊢
  obtain ⟨h1, h2⟩ := integral_played hh hfin
  rw [← h2]
  simp only [mean_sample]
  exact sample_mean (measurable_played hh).ennreal_toReal h1

/-- **C79** If the histories are independent and their scores have a finite mean square, the standard
deviation that is printed, times the square root of the number of histories, tends to the standard
deviation of the score of one history. -/
theorem C79_standard_deviation (hh : ∀ s g, Measurable fun d => hit s d g)
    (hfin : ∫⁻ us, played endless G nodes P hit a b c g us ^ 2 ∂uniforms ≠ ⊤) :
    ∀ᵐ histories ∂(Measure.infinitePi fun _ : ℕ => uniforms),
      Tendsto (fun n : ℕ => Real.sqrt n * standardError (sample (fun e =>
        (played endless G nodes P hit a b c g (histories e)).toReal) n)) atTop
        (𝓝 (Real.sqrt ((∫⁻ us, played endless G nodes P hit a b c g us ^ 2 ∂uniforms).toReal -
          (∫⁻ us, played endless G nodes P hit a b c g us ∂uniforms).toReal ^ 2))) := by
  obtain ⟨h1, -, h2⟩ := played_square hh hfin
  have h := sample_spread (X := fun us => (played endless G nodes P hit a b c g us).toReal)
    (measurable_played hh).ennreal_toReal h1
  rw [h2] at h
  exact h

/-- **C79** The mean that is printed is within `k` of the standard deviations that are printed of the
mean of the solution of the transport equation with a probability that tends to the one of the normal
distribution. -/
theorem C79_confidence (hh : ∀ s g, Measurable fun d => hit s d g)
    (hfin : ∫⁻ us, played endless G nodes P hit a b c g us ^ 2 ∂uniforms ≠ ⊤)
    (hpos : (∫⁻ us, played endless G nodes P hit a b c g us ∂uniforms) ^ 2 <
      ∫⁻ us, played endless G nodes P hit a b c g us ^ 2 ∂uniforms) {k : ℝ} (hk : 0 ≤ k) :
    Tendsto (fun n : ℕ => (Measure.infinitePi fun _ : ℕ => uniforms) {histories |
      |mean (sample (fun e => (played endless G nodes P hit a b c g (histories e)).toReal) n) -
          (emittedMean a b P.source.direction fun d =>
            meanChain G nodes P.world P.method hit c P.source.position d g).toReal| ≤
        k * standardError (sample (fun e =>
          (played endless G nodes P hit a b c g (histories e)).toReal) n)}) atTop
      (𝓝 (ENNReal.ofReal (∫ x in -k..k, Real.exp (-(x ^ 2 / 2)) / Real.sqrt (2 * Real.pi)))) := by
  obtain ⟨h1, h2, h3⟩ := played_square hh hfin
  rw [← C79_mean G nodes P hh a b c g, ← (integral_played hh h2).2]
  refine sample_confidence (measurable_played hh).ennreal_toReal h1 ?_ k hk
  rw [h3]
  have := (ENNReal.toReal_lt_toReal (ENNReal.pow_ne_top h2) hfin).2 hpos
  rw [ENNReal.toReal_pow] at this
  linarith

end Many

end Minimc.Props
