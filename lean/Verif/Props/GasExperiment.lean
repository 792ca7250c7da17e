import Verif.Lemmas.GasSquare
import Verif.Props.Coal
import Verif.Props.GasAlike

/-!
# Properties: a run with gases as an experiment (C103)

What C79 says of multigroup problems, for problems with continuous energies and gases.
-/

namespace Minimc.Props

open Classical Spec MeasureTheory ProbabilityTheory Filter Topology
open scoped ENNReal

variable {a b : Direction → Direction} {data : Nuclide → Continuous} {P : Problem}
  {hit : SurfaceObj → Direction → ℝ → ℝ≥0∞} {u v : Direction} {c : Cell} {e : ℝ}

/-- **C103** With independent numbers, the mean score of a history is the mean, over the directions of
the source, of the solution of the transport equation of C81 at the source. -/
theorem C103_mean (h : Frames a b) (data : Nuclide → Continuous) (P : Problem)
    (hh : ∀ s, Measurable fun q : Direction × ℝ => hit s q.1 q.2) (u v : Direction) (c : Cell) (e : ℝ) :
    ∫⁻ us, gasPlayed endless a b data P hit u v c e us ∂uniforms =
      emittedMean u v P.source.direction fun d =>
        meanGas a b data P.world P.method hit c P.source.position d e :=
  lintegral_emitted u v P.source.direction (measurable_gas_rounds h hh c P.source.position e)

/-! ### The mean square -/

theorem lintegral_gas_rounds_sq (h : Frames a b) {w : World} {method : Method}
    (hh : ∀ s, Measurable fun q : Direction × ℝ => hit s q.1 q.2) (c : Cell) (x : Point) (d : Direction)
    (e : ℝ) : ∫⁻ us, (⨆ n, gasScore endless a b data w method hit n c x d e us) ^ 2 ∂uniforms =
      ⨆ n, gasSquare a b data w method hit n c x d e := by
  unfold gasSquare
  rw [← lintegral_iSup]
  · exact lintegral_congr fun us => iSup_square (gasScore_monotone c x d e us)
  · intro n
    exact (measurable_gasScore_us h hh n c x d e).pow_const 2
  · intro n n' h us
    exact pow_le_pow_left' (gasScore_monotone c x d e us h) 2

theorem gas_budget {F t K M N κ : ℝ} (hF : 0 ≤ F) (ht : 0 ≤ t) (hK : 0 ≤ K) (hM : 0 ≤ M) (hN : 0 ≤ N)
    (hs : F ≤ κ * t) (hKe : K * (1 - κ) = κ * (N * M ^ 2)) :
    ENNReal.ofReal F * (ENNReal.ofReal K + ENNReal.ofReal N * ENNReal.ofReal M ^ 2) ≤
      ENNReal.ofReal t * ENNReal.ofReal K := by
  have hNM : 0 ≤ N * M ^ 2 := by positivity
  rw [← ENNReal.ofReal_pow hM, ← ENNReal.ofReal_mul hN, ← ENNReal.ofReal_add hK hNM,
    ← ENNReal.ofReal_mul hF, ← ENNReal.ofReal_mul ht]
  refine ENNReal.ofReal_le_ofReal ?_
  have a1 : F * (K + N * M ^ 2) ≤ κ * t * (K + N * M ^ 2) := mul_le_mul_of_nonneg_right hs (by linarith)
  have a2 : t * (K * (1 - κ)) = t * (κ * (N * M ^ 2)) := by rw [hKe]
  linarith

/-- **C103** A bound for the mean square of the score of a history.  `S` holds the places that neutrons can
be at; at most `N` neutrons are born in a fission on average, a neutron scores at most `M` on average, and a
collision leaves at most `κ < 1` neutrons on average. -/
theorem C103_second_moment (h : Frames a b) (hw : GasWorld data P.world)
    (hd : Configured P.source.direction) (hh : ∀ s, Measurable fun q : Direction × ℝ => hit s q.1 q.2)
    (hone : ∀ s d e, hit s d e ≤ 1) {S : Cell → Point → Prop}
    (hstay : ∀ c ∈ P.world.cells, c.material ≠ none → ∀ x d (s : ℝ), S c x → UnitVec d → 0 < s →
      (s : WithTop ℝ) < ahead c x d → S c (along x d s) ∧
        ∀ c', cellAt P.world (along x d s) = some c' → S c' (along x d s))
    (hnext : ∀ c ∈ P.world.cells, c.material ≠ none → ∀ x d, S c x → UnitVec d → ahead c x d ≠ ⊤ →
      ∀ s c', faced c x d = some s → cellAt P.world (beyond c x d) = some c' → S c' (beyond c x d))
    {M N κ : ℝ} (hM0 : 0 ≤ M) (hN0 : 0 ≤ N) (hκ0 : 0 ≤ κ) (hκ1 : κ < 1)
    (hM : ∀ c ∈ P.world.cells, ∀ x d, S c x → UnitVec d → ∀ e, 0 < e →
      meanGas a b data P.world P.method hit c x d e ≤ ENNReal.ofReal M)
    (hN : ∀ c ∈ P.world.cells, ∀ m, c.material = some m → ∀ x ∈ m.afracs, ∀ r ∈ (data x.1).reactions,
      ∀ ev nubar, r = .fission ev nubar → ∀ e, 0 < e → yieldAt nubar e ≤ N)
    (hκ : ∀ c ∈ P.world.cells, ∀ m, c.material = some m → ∀ e, 0 < e →
      neutronRate data m (heat c) e ≤ κ * collisionRate data m (heat c) e)
    (hf : ∀ r, P.source.direction = .isotropicFlux r → Frame u v r)
    (hc : c ∈ P.world.cells) (hx : S c P.source.position) (he : 0 < e) :
    ∫⁻ us, gasPlayed endless a b data P hit u v c e us ^ 2 ∂uniforms ≤
      ENNReal.ofReal (1 + 2 * M) * (∫⁻ us, gasPlayed endless a b data P hit u v c e us ∂uniforms) +
        ENNReal.ofReal (κ * N * M ^ 2 / (1 - κ)) := by
  set K : ℝ := κ * N * M ^ 2 / (1 - κ) with hK
  have hK0 : 0 ≤ K := by
    have : 0 < 1 - κ := by linarith
    positivity
  have hk' : ∀ c ∈ P.world.cells, ∀ m, c.material = some m → ∀ e, 0 < e →
      ENNReal.ofReal (neutronRate data m (heat c) e) *
        (ENNReal.ofReal K + ENNReal.ofReal N * ENNReal.ofReal M ^ 2) ≤
          ENNReal.ofReal (collisionRate data m (heat c) e) * ENNReal.ofReal K := by
    intro c hc m hm e he
    have ht := (hw.rate_pos hc hm he).le
    have hs := hκ c hc m hm e he
    have hKe : K * (1 - κ) = κ * (N * M ^ 2) := by rw [hK, div_mul_cancel₀ _ (by linarith), mul_assoc]
    rcases le_total 0 (neutronRate data m (heat c) e) with h0 | h0
    · exact gas_budget h0 ht hK0 hM0 hN0 hs hKe
    · rw [ENNReal.ofReal_of_nonpos h0, zero_mul]
      exact zero_le
  have hsq : ∀ d, UnitVec d →
      ∫⁻ us, (⨆ n, gasScore endless a b data P.world P.method hit n c P.source.position d e us) ^ 2
        ∂uniforms ≤ ∫⁻ us, ENNReal.ofReal (1 + 2 * M) *
          (⨆ n, gasScore endless a b data P.world P.method hit n c P.source.position d e us) +
            ENNReal.ofReal K ∂uniforms := by
    intro d hd
    have hmeas : Measurable fun us =>
        ⨆ n, gasScore endless a b data P.world P.method hit n c P.source.position d e us :=
      (measurable_gas_rounds h hh c P.source.position e).comp
        (f := fun us : ℕ → ℝ => (d, us)) (measurable_const.prodMk measurable_id)
    rw [lintegral_gas_rounds_sq h hh, lintegral_add_right _ measurable_const, lintegral_const_mul _ hmeas,
      lintegral_const, measure_univ, mul_one]
    refine iSup_le fun n => ?_
    have := gasSquare_le (method := P.method) h hw hh hone hstay hnext (M := ENNReal.ofReal M)
      (N := ENNReal.ofReal N) (K := ENNReal.ofReal K) ENNReal.ofReal_ne_top hM
      (fun c hc m hm x hx r hr ev nubar hev e he =>
        ENNReal.ofReal_le_ofReal (hN c hc m hm x hx r hr ev nubar hev e he)) hk' n hc hx hd he
    refine this.trans_eq ?_
    congr 2
    rw [ENNReal.ofReal_add one_pos.le (by positivity), ENNReal.ofReal_mul two_pos.le]
    simp
  have hm := measurable_gas_rounds (data := data) (w := P.world) (method := P.method) h hh c
    P.source.position e
  unfold gasPlayed
  simp only [emitted_sq]
  rw [lintegral_emitted u v P.source.direction (hm.pow_const 2)]
  refine (emittedMean_mono hd hf hsq).trans_eq ?_
  rw [← lintegral_emitted u v P.source.direction
    (start := fun d us => ENNReal.ofReal (1 + 2 * M) *
      (⨆ n, gasScore endless a b data P.world P.method hit n c P.source.position d e us) +
        ENNReal.ofReal K) ((hm.const_mul _).add_const _)]
  simp only [emitted_affine]
  rw [lintegral_add_right _ measurable_const, lintegral_const_mul _ (measurable_emitted u v _ hm),
    lintegral_const, measure_univ, mul_one]

/-! ### Many histories -/

section Many

variable {f : (ℕ → ℝ) → ℝ≥0∞}

theorem integral_score (hm : Measurable f) (hfin : ∫⁻ us, f us ∂uniforms ≠ ⊤) :
    Integrable (fun us => (f us).toReal) uniforms ∧
      ∫ us, (f us).toReal ∂uniforms = (∫⁻ us, f us ∂uniforms).toReal :=
  ⟨integrable_toReal_of_lintegral_ne_top hm.aemeasurable hfin,
    integral_toReal hm.aemeasurable (ae_lt_top hm hfin)⟩

theorem score_square (hm : Measurable f) (hfin : ∫⁻ us, f us ^ 2 ∂uniforms ≠ ⊤) :
    MemLp (fun us => (f us).toReal) 2 uniforms ∧ ∫⁻ us, f us ∂uniforms ≠ ⊤ ∧
      Var[fun us => (f us).toReal; uniforms] =
        (∫⁻ us, f us ^ 2 ∂uniforms).toReal - (∫⁻ us, f us ∂uniforms).toReal ^ 2 := by
  have hfin1 : ∫⁻ us, f us ∂uniforms ≠ ⊤ := by
    refine ne_top_of_le_ne_top (b := 1 + ∫⁻ us, f us ^ 2 ∂uniforms)
      (ENNReal.add_ne_top.2 ⟨ENNReal.one_ne_top, hfin⟩) ?_
    calc _ ≤ ∫⁻ us, 1 + f us ^ 2 ∂uniforms :=
          lintegral_mono fun us => by
            rcases le_total (f us) 1 with h | h
            · exact h.trans le_self_add
            · exact (le_self_pow h two_ne_zero).trans le_add_self
      _ = _ := by rw [lintegral_add_left measurable_const, lintegral_const, measure_univ, mul_one]
  have hi2 : Integrable (fun us => (f us).toReal ^ 2) uniforms := by
    have := integrable_toReal_of_lintegral_ne_top (hm.pow_const 2).aemeasurable hfin
    simpa only [ENNReal.toReal_pow] using this
  have h2 : MemLp (fun us => (f us).toReal) 2 uniforms :=
    (memLp_two_iff_integrable_sq hm.ennreal_toReal.aestronglyMeasurable).2 hi2
  refine ⟨h2, hfin1, ?_⟩
  rw [variance_eq_sub h2, (integral_score hm hfin1).2]
  congr 1
  have := integral_toReal (hm.pow_const 2).aemeasurable (ae_lt_top (hm.pow_const 2) hfin)
  simpa only [Pi.pow_apply, ENNReal.toReal_pow] using this

/-- **C103** If the histories are independent, the mean that is printed tends to the mean of the solution
of the transport equation over the directions of the source. -/
theorem C103_average (h : Frames a b) (hh : ∀ s, Measurable fun q : Direction × ℝ => hit s q.1 q.2)
    (hfin : (emittedMean u v P.source.direction fun d =>
      meanGas a b data P.world P.method hit c P.source.position d e) ≠ ⊤) :
    ∀ᵐ histories ∂(Measure.infinitePi fun _ : ℕ => uniforms),
      Tendsto (fun n : ℕ => mean (sample (fun k =>
        (gasPlayed endless a b data P hit u v c e (histories k)).toReal) n)) atTop
        (𝓝 (emittedMean u v P.source.direction fun d =>
          meanGas a b data P.world P.method hit c P.source.position d e).toReal) := by
  have hm := measurable_gasPlayed (data := data) (P := P) h hh u v c e
  rw [← C103_mean h data P hh u v c e] at hfin ⊢
  obtain ⟨h1, h2⟩ := integral_score hm hfin
  rw [← h2]
  simp only [mean_sample]
  exact sample_mean hm.ennreal_toReal h1

/-- **C103** If the histories are independent and their scores have a finite mean square, the standard
deviation that is printed, times the square root of the number of histories, tends to the standard
deviation of the score of one history. -/
theorem C103_standard_deviation (h : Frames a b)
    (hh : ∀ s, Measurable fun q : Direction × ℝ => hit s q.1 q.2)
    (hfin : ∫⁻ us, gasPlayed endless a b data P hit u v c e us ^ 2 ∂uniforms ≠ ⊤) :
    ∀ᵐ histories ∂(Measure.infinitePi fun _ : ℕ => uniforms),
      Tendsto (fun n : ℕ => Real.sqrt n * standardError (sample (fun k =>
        (gasPlayed endless a b data P hit u v c e (histories k)).toReal) n)) atTop
        (𝓝 (Real.sqrt ((∫⁻ us, gasPlayed endless a b data P hit u v c e us ^ 2 ∂uniforms).toReal -
          (∫⁻ us, gasPlayed endless a b data P hit u v c e us ∂uniforms).toReal ^ 2))) := by
  have hm := measurable_gasPlayed (data := data) (P := P) h hh u v c e
  obtain ⟨h1, -, h2⟩ := score_square hm hfin
  have key := sample_spread hm.ennreal_toReal h1
  rw [h2] at key
  exact key

/-- **C103** The mean that is printed is within `k` of the standard deviations that are printed of the
mean of the solution of the transport equation with a probability that tends to the one of the normal
distribution. -/
theorem C103_confidence (h : Frames a b) (hh : ∀ s, Measurable fun q : Direction × ℝ => hit s q.1 q.2)
    (hfin : ∫⁻ us, gasPlayed endless a b data P hit u v c e us ^ 2 ∂uniforms ≠ ⊤)
    (hpos : (∫⁻ us, gasPlayed endless a b data P hit u v c e us ∂uniforms) ^ 2 <
      ∫⁻ us, gasPlayed endless a b data P hit u v c e us ^ 2 ∂uniforms) {k : ℝ} (hk : 0 ≤ k) :
    Tendsto (fun n : ℕ => (Measure.infinitePi fun _ : ℕ => uniforms) {histories |
      |mean (sample (fun j => (gasPlayed endless a b data P hit u v c e (histories j)).toReal) n) -
          (emittedMean u v P.source.direction fun d =>
            meanGas a b data P.world P.method hit c P.source.position d e).toReal| ≤
        k * standardError (sample (fun j =>
          (gasPlayed endless a b data P hit u v c e (histories j)).toReal) n)}) atTop
      (𝓝 (ENNReal.ofReal (∫ x in -k..k, Real.exp (-(x ^ 2 / 2)) / Real.sqrt (2 * Real.pi)))) := by
  have hm := measurable_gasPlayed (data := data) (P := P) h hh u v c e
  obtain ⟨h1, h2, h3⟩ := score_square hm hfin
  rw [← C103_mean h data P hh u v c e, ← (integral_score hm h2).2]
  refine sample_confidence hm.ennreal_toReal h1 ?_ k hk
  rw [h3]
  have := (ENNReal.toReal_lt_toReal (ENNReal.pow_ne_top h2) hfin).2 hpos
  rw [ENNReal.toReal_pow] at this
  linarith

end Many

/-- **C103** A run prints, for every bin of every current estimator, the mean and the standard error of the
scores of a game.  With independent numbers the mean of that game over more and more histories tends to the
solution of the transport equation, averaged over the directions of the source, if it is finite. -/
theorem C103_result : ∃ a b : Direction → Direction, Frames a b ∧
    ∀ {data : Nuclide → Continuous} {P : Problem}, GasWorld data P.world →
      EnergySource P.world P.source → Configured P.source.direction → FreshSet P.init → 1 ≤ P.threads →
      1 ≤ P.batchsize → ∀ {fuel elapsed : ℕ} {r : EstimatorSet}, SolveResult P fuel 0 r elapsed →
      ∃ u v c e, (∀ r, P.source.direction = .isotropicFlux r → Frame u v r) ∧
        FirstCell P.world P.source.position c ∧ P.source.energy = .continuous e ∧ 0 < e ∧
        List.Forall₂ (fun o o' : Estimator => o'.base.name = o.base.name ∧
          ∀ i < o.base.bins.size, ∃ (game : ∀ {σ : Type}, Supply σ → σ → ℝ≥0∞) (truth : ℝ≥0∞),
            (truth = emittedMean u v P.source.direction fun d =>
              meanGas a b data P.world P.method (energyHit o.surface o.base.bins i) c P.source.position d
                e) ∧
            (o'.base.means P.batchsize)[i]? = some (.ok (mean (sample (fun k =>
              (game generator (Rng.ofSeed (P.seed + k))).toReal) P.batchsize))) ∧
            (o'.base.stdDevs P.batchsize)[i]? = some (.ok (standardError (sample (fun k =>
              (game generator (Rng.ofSeed (P.seed + k))).toReal) P.batchsize))) ∧
            ∫⁻ us, game endless us ∂uniforms = truth ∧
            (truth ≠ ⊤ → ∀ᵐ histories ∂(Measure.infinitePi fun _ : ℕ => uniforms),
              Tendsto (fun n : ℕ => mean (sample (fun k => (game endless (histories k)).toReal) n)) atTop
                (𝓝 truth.toReal)))
          P.init.estimators r.estimators := by
  obtain ⟨a, b, hab, key⟩ := C101_printed
  refine ⟨a, b, hab, fun {data P} hw hs hd hinit ht hb {fuel elapsed r} h => ?_⟩
  obtain ⟨u, v, c, e, h1, h2, h3, h4, h5⟩ := key hw hs hd hinit ht hb h
  refine ⟨u, v, c, e, h1, h2, h3, h4, h5.imp fun o o' ⟨k1, k2⟩ => ⟨k1, fun i hi => ?_⟩⟩
  obtain ⟨k3, k4⟩ := k2 i hi
  have hh := measurable_energyHit o.surface o.base.bins i
  exact ⟨fun {σ} S s => gasPlayed S a b data P (energyHit o.surface o.base.bins i) u v c e s, _, rfl, k3, k4,
    C103_mean hab data P hh u v c e, fun hfin => C103_average hab hh hfin⟩

end Minimc.Props
