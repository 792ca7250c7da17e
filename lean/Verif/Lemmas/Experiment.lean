import Verif.Lemmas.ChainLimit
import Verif.Spec.Experiment
import Verif.Props.Chain

/-! # The source as part of the experiment -/

namespace Minimc

open Classical MeasureTheory Spec Set
open scoped ENNReal

variable {α : Type*} [MeasurableSpace α]

theorem measurable_tilted (a b d : Direction) {c u : α → ℝ} (hc : Measurable c) (hu : Measurable u) :
    Measurable fun q => tilted a b d (c q) (u q) := by
  refine measurable_point ?_ ?_ ?_ <;> (unfold tilted; fun_prop)

/-- The mean over a number whose square root is used. -/
theorem lintegral_sqrt (H : ℝ → ℝ≥0∞) :
    ∫⁻ u, H (Real.sqrt u) ∂uniform = ∫⁻ c in Ioo (0 : ℝ) 1, ENNReal.ofReal (2 * c) * H c := by
  have himage : (fun c : ℝ => c ^ 2) '' Ioo 0 1 = Ioo 0 1 := by
    ext u
    constructor
    · rintro ⟨c, ⟨h0, h1⟩, rfl⟩
      exact ⟨by positivity, by nlinarith⟩
    · rintro ⟨h0, h1⟩
      refine ⟨Real.sqrt u, ⟨Real.sqrt_pos.2 h0, ?_⟩, Real.sq_sqrt h0.le⟩
      rw [Real.sqrt_lt' one_pos]
      linarith
  have h := lintegral_image_eq_lintegral_abs_deriv_mul (s := Ioo (0 : ℝ) 1) (f := fun c : ℝ => c ^ 2)
    (f' := fun c => 2 * c) measurableSet_Ioo
    (fun c _ => by simpa using (hasDerivAt_pow 2 c).hasDerivWithinAt)
    (by
      intro c hc c' hc' hcc
      exact (pow_left_inj₀ hc.1.le hc'.1.le two_ne_zero).1 hcc)
    (fun u => H (Real.sqrt u))
  rw [himage] at h
  unfold uniform
  rw [← Measure.restrict_congr_set Ioo_ae_eq_Ico, h]
  refine setLIntegral_congr_fun measurableSet_Ioo fun c hc => ?_
  rw [Real.sqrt_sq hc.1.le, abs_of_pos (by linarith [hc.1])]

theorem measurable_emitted (a b : Direction) (dist : DirectionDist)
    {start : Direction → (ℕ → ℝ) → ℝ≥0∞}
    (hs : Measurable fun q : Direction × (ℕ → ℝ) => start q.1 q.2) :
    Measurable (emitted endless a b dist start) := by
  have hch : Measurable endless.child := measurePreserving_child.measurable
  have hr : Measurable endless.rest := measurable_shift measurable_id 1
  have hn : ∀ k, Measurable fun us => endless.numbers us k := fun k =>
    (measurable_pi_apply 0).comp (hr.iterate k)
  unfold emitted
  cases dist with
  | constant d => exact hs.comp (measurable_const.prodMk hch)
  | isotropic =>
    exact hs.comp ((measurable_directionFrom (hn 0) (hn 1)).prodMk (hch.comp (hr.iterate 2)))
  | isotropicFlux r =>
    exact hs.comp ((measurable_tilted a b r (hn 0).sqrt (hn 1)).prodMk (hch.comp (hr.iterate 2)))

/-- The mean over the numbers that the source uses. -/
theorem lintegral_emitted (a b : Direction) (dist : DirectionDist)
    {start : Direction → (ℕ → ℝ) → ℝ≥0∞}
    (hs : Measurable fun q : Direction × (ℕ → ℝ) => start q.1 q.2) :
    ∫⁻ us, emitted endless a b dist start us ∂uniforms =
      emittedMean a b dist fun d => ∫⁻ us, start d us ∂uniforms := by
  have hch : Measurable endless.child := measurePreserving_child.measurable
  have hs1 : ∀ d, ∫⁻ us, start d (endless.child us) ∂uniforms = ∫⁻ us, start d us ∂uniforms := fun d =>
    measurePreserving_child.lintegral_comp (hs.comp (measurable_const.prodMk measurable_id))
  have hs2 : Measurable fun q : Direction × (ℕ → ℝ) => start q.1 (endless.child q.2) :=
    hs.comp (measurable_fst.prodMk (hch.comp measurable_snd))
  cases dist with
  | constant d => exact hs1 d
  | isotropic =>
    have h := lintegral_directionFrom (F := fun d us => start d (endless.child us)) hs2
    simp only [hs1] at h
    exact h
  | isotropicFlux r =>
    have h1 : ∫⁻ us, start (tilted a b r (Real.sqrt (us 0)) (us 1)) (endless.child fun k => us (k + 2))
        ∂uniforms = ∫⁻ u, ∫⁻ us, start (tilted a b r (Real.sqrt u) (us 0))
          (endless.child fun k => us (k + 1)) ∂uniforms ∂uniform :=
      lintegral_first (F := fun u us => start (tilted a b r (Real.sqrt u) (us 0))
        (endless.child fun k => us (k + 1)))
        (hs2.comp ((measurable_tilted a b r measurable_fst.sqrt
          (measurable_at measurable_snd 0)).prodMk (measurable_shift measurable_snd 1)))
    have h2 : ∀ c, ∫⁻ us, start (tilted a b r c (us 0)) (endless.child fun k => us (k + 1)) ∂uniforms =
        ∫⁻ v, ∫⁻ us, start (tilted a b r c v) us ∂uniforms ∂uniform := by
      intro c
      rw [lintegral_first (F := fun v us => start (tilted a b r c v) (endless.child us))
        (hs2.comp ((measurable_tilted a b r measurable_const measurable_fst).prodMk measurable_snd))]
      simp only [hs1]
    refine h1.trans ?_
    simp only [h2]
    rw [lintegral_sqrt fun c => ∫⁻ v, ∫⁻ us, start (tilted a b r c v) us ∂uniforms ∂uniform]
    unfold uniform emittedMean
    rw [Measure.restrict_congr_set Ioo_ae_eq_Ico]

end Minimc
