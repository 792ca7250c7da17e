import Verif.Lemmas.TurnLaw
import Verif.Lemmas.Experiment
import Verif.Props.Source

/-! # The source of a problem that is turned or mirrored -/

namespace Minimc

open Classical Spec MeasureTheory
open scoped ENNReal

variable {R : Point → Point}

theorem cosAngle_tilted {a b r : Direction} (hr : UnitVec r) (hf : Frame a b r) (c t : ℝ) :
    cosAngle r (tilted a b r c t) = c := by
  obtain ⟨-, -, hra, hrb, -, -⟩ := hf
  unfold tilted
  generalize Real.sqrt (1 - c ^ 2) = s at *
  generalize Real.cos (2 * Real.pi * t) = x at *
  generalize Real.sin (2 * Real.pi * t) = y at *
  unfold UnitVec cosAngle at *
  dsimp only
  linear_combination s * x * hra + s * y * hrb + c * hr

theorem measurable_cosAngle (r : Direction) : Measurable fun d : Direction => cosAngle r d := by
  unfold cosAngle
  exact ((measurable_id.point_x.const_mul _).add (measurable_id.point_y.const_mul _)).add
    (measurable_id.point_z.const_mul _)

/-- The directions of an isotropic flux are in proportion to the cosine, whatever the frame. -/
theorem fluxMean_eq {a b r : Direction} (hr : UnitVec r) (hf : Frame a b r) {F : Direction → ℝ≥0∞}
    (hF : Measurable F) :
    emittedMean a b (.isotropicFlux r) F = sphereMean fun d => ENNReal.ofReal (4 * cosAngle r d) * F d := by
  have hm : Measurable fun d => ENNReal.ofReal (4 * cosAngle r d) * F d :=
    ((measurable_cosAngle r).const_mul 4).ennreal_ofReal.mul hF
  rw [← lintegral_tilted hr hf hm]
  simp only [cosAngle_tilted hr hf]
  have h1 : ∀ u : ℝ, ∫⁻ v, ENNReal.ofReal (4 * (2 * u - 1)) * F (tilted a b r (2 * u - 1) v) ∂uniform =
      ENNReal.ofReal (4 * (2 * u - 1)) * ∫⁻ v, F (tilted a b r (2 * u - 1) v) ∂uniform := fun u =>
    lintegral_const_mul _ (hF.comp (measurable_tilted a b r measurable_const measurable_id))
  simp only [h1]
  rw [lintegral_cosine fun c => ENNReal.ofReal (4 * c) * ∫⁻ v, F (tilted a b r c v) ∂uniform]
  have h2 : ∫⁻ c in Set.Ioo (-1 : ℝ) 1, ENNReal.ofReal (4 * c) * ∫⁻ v, F (tilted a b r c v) ∂uniform =
      ∫⁻ c in Set.Ioo (0 : ℝ) 1, ENNReal.ofReal (4 * c) * ∫⁻ v, F (tilted a b r c v) ∂uniform := by
    rw [← lintegral_indicator measurableSet_Ioo, ← lintegral_indicator measurableSet_Ioo]
    refine lintegral_congr fun c => ?_
    unfold Set.indicator
    by_cases h : 0 < c
    · have e : (c ∈ Set.Ioo (-1 : ℝ) 1) ↔ c ∈ Set.Ioo (0 : ℝ) 1 :=
        ⟨fun k => ⟨h, k.2⟩, fun k => ⟨by linarith, k.2⟩⟩
      simp only [e]
    · have e : ENNReal.ofReal (4 * c) = 0 := ENNReal.ofReal_of_nonpos (by linarith)
      have e' : c ∉ Set.Ioo (0 : ℝ) 1 := fun k => h k.1
      simp [e, e']
  rw [h2, ← lintegral_const_mul' _ _ ENNReal.ofReal_ne_top]
  unfold emittedMean uniform
  rw [← Measure.restrict_congr_set Ioo_ae_eq_Ico]
  refine setLIntegral_congr_fun measurableSet_Ioo fun c _ => ?_
  rw [← mul_assoc, ← ENNReal.ofReal_mul (by norm_num)]
  congr 2
  ring

theorem emittedMean_turn (hR : Rigid R) {dist : DirectionDist} (hd : Props.Configured dist)
    {a b a' b' : Direction} (hf : ∀ r, dist = .isotropicFlux r → Frame a b r)
    (hf' : ∀ r, turnDist R dist = .isotropicFlux r → Frame a' b' r) {F F' : Direction → ℝ≥0∞}
    (hF : Measurable F) (hF' : Measurable F') (h : ∀ d, F d = F' (R d)) :
    emittedMean a b dist F = emittedMean a' b' (turnDist R dist) F' := by
  cases dist with
  | constant d => exact h d
  | isotropic =>
    have e : F = fun d => F' (R d) := funext h
    change sphereMean F = sphereMean F'
    rw [e]
    exact sphereMean_rigid hR hF'
  | isotropicFlux r =>
    have hr : UnitVec r := hd
    have hr' : UnitVec (R r) := rigid_unit hR hr
    have hm : Measurable fun d => ENNReal.ofReal (4 * cosAngle (R r) d) * F' d :=
      ((measurable_cosAngle (R r)).const_mul 4).ennreal_ofReal.mul hF'
    change _ = emittedMean a' b' (.isotropicFlux (R r)) F'
    rw [fluxMean_eq hr (hf r rfl) hF, fluxMean_eq hr' (hf' (R r) rfl) hF', ← sphereMean_rigid hR hm]
    simp only [hR.angle, h]

theorem emitted_apply (a b : Direction) (dist : DirectionDist) (start : Direction → (ℕ → ℝ) → ℝ≥0∞)
    (φ : ℝ≥0∞ → ℝ≥0∞) (us : ℕ → ℝ) :
    φ (emitted endless a b dist start us) = emitted endless a b dist (fun d us => φ (start d us)) us := by
  cases dist <;> rfl

/-- A neutron that leaves the source. -/
theorem sameLaw_emitted (hR : Rigid R) {dist : DirectionDist} (hd : Props.Configured dist)
    {a b a' b' : Direction} (hf : ∀ r, dist = .isotropicFlux r → Frame a b r)
    (hf' : ∀ r, turnDist R dist = .isotropicFlux r → Frame a' b' r)
    {start start' : Direction → (ℕ → ℝ) → ℝ≥0∞}
    (hs : Measurable fun q : Direction × (ℕ → ℝ) => start q.1 q.2)
    (hs' : Measurable fun q : Direction × (ℕ → ℝ) => start' q.1 q.2)
    (h : ∀ d, SameLaw (start d) (start' (R d))) :
    SameLaw (emitted endless a b dist start) (emitted endless a' b' (turnDist R dist) start') := by
  intro φ hφ
  simp only [emitted_apply]
  rw [lintegral_emitted a b dist (start := fun d us => φ (start d us)) (hφ.comp hs),
    lintegral_emitted a' b' (turnDist R dist) (start := fun d us => φ (start' d us)) (hφ.comp hs')]
  exact emittedMean_turn hR hd hf hf' (hφ.comp hs).lintegral_prod_right' (hφ.comp hs').lintegral_prod_right'
    fun d => h d φ hφ

end Minimc
