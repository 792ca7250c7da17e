import Verif.Spec.Sequence
import Mathlib.MeasureTheory.Function.JacobianOneDim
import Mathlib.MeasureTheory.Measure.Haar.OfBasis
import Mathlib.MeasureTheory.Group.LIntegral
import Mathlib.Analysis.SpecialFunctions.PolarCoord
import Mathlib.Analysis.SpecialFunctions.Gaussian.GaussianIntegral

/-! # Distribution of the speeds sampled for a target

Change of variables for the two formulas of the free gas model. -/

namespace Minimc.Spec

open MeasureTheory Set
open scoped ENNReal

/-- A uniform number's negative logarithm has the exponential distribution. -/
theorem lintegral_neg_log (g : ℝ → ℝ≥0∞) :
    ∫⁻ u, g (-Real.log u) ∂uniform = ∫⁻ s in Ioi (0 : ℝ), ENNReal.ofReal (Real.exp (-s)) * g s := by
  have h := lintegral_image_eq_lintegral_abs_deriv_mul (s := Ioi (0 : ℝ))
    (f := fun s => Real.exp (-s)) (f' := fun s => -Real.exp (-s)) measurableSet_Ioi
    (fun s _ => by
      have := ((hasDerivAt_id s).neg.exp).hasDerivWithinAt (s := Ioi (0 : ℝ))
      simpa using this)
    (fun a _ b _ hab => by
      have := Real.exp_injective hab
      linarith)
    (fun u => g (-Real.log u))
  have hi : (fun s : ℝ => Real.exp (-s)) '' Ioi (0 : ℝ) = Ioo 0 1 := by
    ext u
    simp only [mem_image, mem_Ioi, mem_Ioo]
    constructor
    · rintro ⟨s, hs, rfl⟩
      exact ⟨Real.exp_pos _, by rw [← Real.exp_zero]; exact Real.exp_lt_exp.2 (by linarith)⟩
    · rintro ⟨h0, h1⟩
      exact ⟨-Real.log u, by linarith [Real.log_neg h0 h1], by rw [neg_neg, Real.exp_log h0]⟩
  rw [hi] at h
  unfold uniform
  rw [← restrict_Ioo_eq_restrict_Ico, h]
  simp only [abs_neg, Real.abs_exp, Real.log_exp, neg_neg]

/-- Numbers on the positive half line as squares. -/
theorem lintegral_sq (g : ℝ → ℝ≥0∞) :
    ∫⁻ r in Ioi (0 : ℝ), g r = ∫⁻ x in Ioi (0 : ℝ), ENNReal.ofReal (2 * x) * g (x ^ 2) := by
  have h := lintegral_image_eq_lintegral_abs_deriv_mul (s := Ioi (0 : ℝ))
    (f := fun x => x ^ 2) (f' := fun x => 2 * x) measurableSet_Ioi
    (fun x _ => by
      have := (hasDerivAt_pow 2 x).hasDerivWithinAt (s := Ioi (0 : ℝ))
      simpa using this)
    (fun a ha b hb hab => by
      exact (pow_left_inj₀ (le_of_lt ha) (le_of_lt hb) two_ne_zero).1 hab)
    g
  have hi : (fun x : ℝ => x ^ 2) '' Ioi (0 : ℝ) = Ioi 0 := by
    ext u
    simp only [mem_image, mem_Ioi]
    constructor
    · rintro ⟨x, hx, rfl⟩
      positivity
    · intro hu
      exact ⟨Real.sqrt u, Real.sqrt_pos.2 hu, Real.sq_sqrt hu.le⟩
  rw [hi] at h
  rw [h]
  refine setLIntegral_congr_fun measurableSet_Ioi fun x hx => ?_
  rw [abs_of_pos (by have : 0 < x := hx; linarith)]

/-- Shift of the half line. -/
theorem lintegral_shift (c : ℝ) (g : ℝ → ℝ≥0∞) :
    ∫⁻ t in Ioi (0 : ℝ), g (c + t) = ∫⁻ r in Ioi c, g r := by
  have h := lintegral_image_eq_lintegral_abs_deriv_mul (s := Ioi (0 : ℝ))
    (f := fun t => c + t) (f' := fun _ => 1) measurableSet_Ioi
    (fun x _ => ((hasDerivAt_id x).const_add c).hasDerivWithinAt)
    (fun a _ b _ hab => by simpa using hab) g
  have hi : (fun t : ℝ => c + t) '' Ioi (0 : ℝ) = Ioi c := by
    ext u
    simp only [mem_image, mem_Ioi]
    constructor
    · rintro ⟨x, hx, rfl⟩; linarith
    · intro hu; exact ⟨u - c, by linarith, by ring⟩
  rw [hi] at h
  rw [h]
  simp

/-- An exponentially distributed number added to `c`. -/
theorem lintegral_exp_shift (c : ℝ) (g : ℝ → ℝ≥0∞) :
    ENNReal.ofReal (Real.exp (-c)) *
      ∫⁻ t in Ioi (0 : ℝ), ENNReal.ofReal (Real.exp (-t)) * g (c + t) =
        ∫⁻ r in Ioi c, ENNReal.ofReal (Real.exp (-r)) * g r := by
  rw [← lintegral_shift c, ← lintegral_const_mul' _ _ ENNReal.ofReal_ne_top]
  refine lintegral_congr fun t => ?_
  rw [← mul_assoc, ← ENNReal.ofReal_mul (Real.exp_pos _).le, ← Real.exp_add]
  congr 3
  ring

/-- The order of integration exchanged over the region above a curve. -/
theorem lintegral_above {φ : ℝ → ℝ} (hφ : Measurable φ) {h : ℝ → ℝ≥0∞} (hh : Measurable h) :
    ∫⁻ a in Ioi (0 : ℝ), ∫⁻ r in Ioi (φ a), h r =
      ∫⁻ r, h r * volume ({a | φ a < r} ∩ Ioi (0 : ℝ)) := by
  have h2 : ∀ a : ℝ, ∫⁻ r in Ioi (φ a), h r = ∫⁻ r, (Ioi (φ a)).indicator h r := fun a =>
    (lintegral_indicator measurableSet_Ioi _).symm
  simp_rw [h2]
  have hm : Measurable fun p : ℝ × ℝ => (Ioi (φ p.1)).indicator h p.2 := by
    have : (fun p : ℝ × ℝ => (Ioi (φ p.1)).indicator h p.2) =
        {p : ℝ × ℝ | φ p.1 < p.2}.indicator (fun p => h p.2) := by
      ext p
      simp only [indicator, mem_Ioi, mem_ofPred_eq]
    rw [this]
    exact Measurable.indicator (by fun_prop)
      (measurableSet_lt (hφ.comp measurable_fst) measurable_snd)
  rw [lintegral_lintegral_swap (f := fun a r => (Ioi (φ a)).indicator h r) hm.aemeasurable]
  refine lintegral_congr fun r => ?_
  have h3 : ∀ a : ℝ, (Ioi (φ a)).indicator h r = {a | φ a < r}.indicator (fun _ => h r) a := by
    intro a
    simp only [indicator, mem_Ioi, mem_ofPred_eq]
  have hms : MeasurableSet {a | φ a < r} := measurableSet_lt hφ measurable_const
  simp_rw [h3]
  rw [lintegral_indicator hms, setLIntegral_const, Measure.restrict_apply hms]

/-- First branch: the sum of two exponentially distributed numbers. -/
theorem lintegral_two_exp {g : ℝ → ℝ≥0∞} (hg : Measurable g) :
    ∫⁻ s in Ioi (0 : ℝ), ENNReal.ofReal (Real.exp (-s)) *
        ∫⁻ t in Ioi (0 : ℝ), ENNReal.ofReal (Real.exp (-t)) * g (s + t) =
      ∫⁻ r in Ioi (0 : ℝ), ENNReal.ofReal (r * Real.exp (-r)) * g r := by
  simp_rw [lintegral_exp_shift]
  rw [lintegral_above (φ := fun s => s) measurable_id (by fun_prop),
    ← lintegral_indicator measurableSet_Ioi]
  refine lintegral_congr fun r => ?_
  have h4 : {a : ℝ | a < r} ∩ Ioi (0 : ℝ) = Ioo 0 r := by
    ext x; simp only [mem_inter_iff, mem_ofPred_eq, mem_Ioi, mem_Ioo]; tauto
  rw [h4, Real.volume_Ioo, sub_zero]
  by_cases hr : 0 < r
  · rw [indicator_of_mem (by exact hr), ENNReal.ofReal_mul hr.le]
    ring
  · rw [indicator_of_notMem (by exact hr), ENNReal.ofReal_of_nonpos (not_lt.1 hr), mul_zero]

theorem ae_uniform : ∀ᵐ u ∂uniform, u ∈ Ioo (0 : ℝ) 1 := by
  unfold uniform
  rw [← restrict_Ioo_eq_restrict_Ico]
  exact ae_restrict_mem measurableSet_Ioo

/-- **First branch**: the speed has density `2 x³ exp (-x²)`. -/
theorem lintegral_speedA {g : ℝ → ℝ≥0∞} (hg : Measurable g) :
    ∫⁻ a, ∫⁻ b, g (Real.sqrt (-Real.log (a * b))) ∂uniform ∂uniform =
      ∫⁻ x in Ioi (0 : ℝ), ENNReal.ofReal (2 * x ^ 3 * Real.exp (-x ^ 2)) * g x := by
  have h1 : ∫⁻ a, ∫⁻ b, g (Real.sqrt (-Real.log (a * b))) ∂uniform ∂uniform =
      ∫⁻ a, ∫⁻ b, g (Real.sqrt (-Real.log a + -Real.log b)) ∂uniform ∂uniform := by
    refine lintegral_congr_ae ?_
    filter_upwards [ae_uniform] with a ha
    refine lintegral_congr_ae ?_
    filter_upwards [ae_uniform] with b hb
    rw [Real.log_mul ha.1.ne' hb.1.ne', neg_add]
  rw [h1, lintegral_neg_log (fun s => ∫⁻ b, g (Real.sqrt (s + -Real.log b)) ∂uniform)]
  have h2 : ∀ s : ℝ, ∫⁻ b, g (Real.sqrt (s + -Real.log b)) ∂uniform =
      ∫⁻ t in Ioi (0 : ℝ), ENNReal.ofReal (Real.exp (-t)) * g (Real.sqrt (s + t)) := fun s =>
    lintegral_neg_log (fun t => g (Real.sqrt (s + t)))
  simp_rw [h2]
  rw [lintegral_two_exp (g := fun r => g (Real.sqrt r)) (by fun_prop), lintegral_sq]
  refine setLIntegral_congr_fun measurableSet_Ioi fun x hx => ?_
  have hx : 0 < x := hx
  rw [Real.sqrt_sq hx.le, ← mul_assoc, ← ENNReal.ofReal_mul (by linarith)]
  congr 2
  ring

/-- Polar coordinates in the first quadrant. -/
theorem lintegral_quadrant {f : ℝ → ℝ → ℝ≥0∞} (hf : Measurable (Function.uncurry f)) :
    ∫⁻ θ in Ioo 0 (Real.pi / 2), ∫⁻ ρ in Ioi (0 : ℝ),
        ENNReal.ofReal ρ * f (ρ * Real.cos θ) (ρ * Real.sin θ) =
      ∫⁻ a in Ioi (0 : ℝ), ∫⁻ b in Ioi (0 : ℝ), f a b := by
  have hq : MeasurableSet (Ioi (0 : ℝ) ×ˢ Ioi (0 : ℝ)) := measurableSet_Ioi.prod measurableSet_Ioi
  have h := lintegral_comp_polarCoord_symm
    ((Ioi (0 : ℝ) ×ˢ Ioi (0 : ℝ)).indicator (Function.uncurry f))
  rw [lintegral_indicator hq, Measure.volume_eq_prod,
    setLIntegral_prod _ hf.aemeasurable] at h
  refine Eq.trans ?_ h
  have e : ∀ p ∈ polarCoord.target, ENNReal.ofReal p.1 •
      (Ioi (0 : ℝ) ×ˢ Ioi (0 : ℝ)).indicator (Function.uncurry f) (polarCoord.symm p) =
      (Ioi (0 : ℝ) ×ˢ Ioo 0 (Real.pi / 2)).indicator (fun p => ENNReal.ofReal p.1 *
        f (p.1 * Real.cos p.2) (p.1 * Real.sin p.2)) p := by
    rintro ⟨ρ, θ⟩ ⟨hρ, hθ⟩
    have hρ : 0 < ρ := hρ
    have hθ : θ ∈ Ioo (-Real.pi) Real.pi := hθ
    rw [smul_eq_mul]
    by_cases hm : θ ∈ Ioo 0 (Real.pi / 2)
    · rw [indicator_of_mem, indicator_of_mem]
      · rfl
      · exact ⟨hρ, hm⟩
      · exact ⟨mul_pos hρ (Real.cos_pos_of_mem_Ioo ⟨by linarith [hm.1, Real.pi_pos], hm.2⟩),
          mul_pos hρ (Real.sin_pos_of_pos_of_lt_pi hm.1 hθ.2)⟩
    · rw [indicator_of_notMem, indicator_of_notMem, mul_zero]
      · exact fun h => hm h.2
      · rintro ⟨h1, h2⟩
        have h1 : 0 < ρ * Real.cos θ := h1
        have h2 : 0 < ρ * Real.sin θ := h2
        have h1 := pos_of_mul_pos_right h1 hρ.le
        have h2 := pos_of_mul_pos_right h2 hρ.le
        refine hm ⟨?_, ?_⟩
        · by_contra hn
          have := Real.sin_nonpos_of_nonpos_of_neg_pi_le (not_lt.1 hn) hθ.1.le
          linarith
        · by_contra hn
          have := Real.cos_nonpos_of_pi_div_two_le_of_le (not_lt.1 hn) (by linarith [hθ.2])
          linarith
  rw [setLIntegral_congr_fun (by exact measurableSet_Ioi.prod measurableSet_Ioo) e]
  have hq' : MeasurableSet (Ioi (0 : ℝ) ×ˢ Ioo 0 (Real.pi / 2)) :=
    measurableSet_Ioi.prod measurableSet_Ioo
  rw [lintegral_indicator hq', Measure.restrict_restrict hq']
  have hi : (Ioi (0 : ℝ) ×ˢ Ioo 0 (Real.pi / 2)) ∩ polarCoord.target =
      Ioi (0 : ℝ) ×ˢ Ioo 0 (Real.pi / 2) := by
    rw [inter_eq_left]
    rintro ⟨ρ, θ⟩ ⟨h1, h2⟩
    have h2 : θ ∈ Ioo 0 (Real.pi / 2) := h2
    exact ⟨h1, by constructor <;> linarith [h2.1, h2.2, Real.pi_pos]⟩
  rw [hi, setLIntegral_prod_symm]
  have : Measurable fun p : ℝ × ℝ => Function.uncurry f (p.1 * Real.cos p.2, p.1 * Real.sin p.2) :=
    hf.comp (by fun_prop)
  exact (Measurable.mul (by fun_prop) this).aemeasurable

/-- A uniform number scaled to the interval from 0 to `c`. -/
theorem lintegral_scale {c : ℝ} (hc : 0 < c) (g : ℝ → ℝ≥0∞) :
    ∫⁻ u, g (c * u) ∂uniform = ENNReal.ofReal c⁻¹ * ∫⁻ θ in Ioo 0 c, g θ := by
  have h := lintegral_image_eq_lintegral_abs_deriv_mul (s := Ioo (0 : ℝ) 1)
    (f := fun u => c * u) (f' := fun _ => c) measurableSet_Ioo
    (fun x _ => by simpa using ((hasDerivAt_id x).const_mul c).hasDerivWithinAt)
    (fun a _ b _ hab => mul_left_cancel₀ hc.ne' hab) g
  have hi : (fun u : ℝ => c * u) '' Ioo (0 : ℝ) 1 = Ioo 0 c := by
    ext v
    simp only [mem_image, mem_Ioo]
    constructor
    · rintro ⟨x, ⟨h1, h2⟩, rfl⟩
      exact ⟨by positivity, by nlinarith⟩
    · rintro ⟨h1, h2⟩
      exact ⟨v / c, ⟨by positivity, by rwa [div_lt_one hc]⟩, by field_simp⟩
  rw [hi, abs_of_pos hc, lintegral_const_mul' _ _ ENNReal.ofReal_ne_top] at h
  unfold uniform
  rw [← restrict_Ioo_eq_restrict_Ico, h, ← mul_assoc, ← ENNReal.ofReal_mul (by positivity),
    inv_mul_cancel₀ hc.ne', ENNReal.ofReal_one, one_mul]

/-- The half-line integral of the Gaussian function. -/
theorem lintegral_gauss :
    ∫⁻ b in Ioi (0 : ℝ), ENNReal.ofReal (Real.exp (-b ^ 2)) =
      ENNReal.ofReal (Real.sqrt Real.pi / 2) := by
  have h := integral_gaussian_Ioi 1
  rw [div_one] at h
  rw [← h, ofReal_integral_eq_lintegral_ofReal]
  · simp
  · exact (integrable_exp_neg_mul_sq one_pos).integrableOn
  · exact Filter.Eventually.of_forall fun _ => (Real.exp_pos _).le

/-- An exponentially distributed number times the squared cosine of a uniform angle is the square of
a number with a Gaussian distribution. -/
theorem lintegral_exp_cos {h : ℝ → ℝ≥0∞} (hh : Measurable h) :
    ∫⁻ w, ∫⁻ b, h (-Real.log b * Real.cos (Real.pi * w / 2) ^ 2) ∂uniform ∂uniform =
      ENNReal.ofReal (2 / Real.sqrt Real.pi) *
        ∫⁻ a in Ioi (0 : ℝ), ENNReal.ofReal (Real.exp (-a ^ 2)) * h (a ^ 2) := by
  have h1 : ∀ θ : ℝ, ∫⁻ b, h (-Real.log b * Real.cos θ ^ 2) ∂uniform =
      ∫⁻ ρ in Ioi (0 : ℝ), ENNReal.ofReal ρ * (2 * (ENNReal.ofReal (Real.exp
        (-((ρ * Real.cos θ) ^ 2 + (ρ * Real.sin θ) ^ 2))) * h ((ρ * Real.cos θ) ^ 2))) := by
    intro θ
    rw [lintegral_neg_log (fun t => h (t * Real.cos θ ^ 2)), lintegral_sq]
    refine setLIntegral_congr_fun measurableSet_Ioi fun ρ hρ => ?_
    have hρ : 0 < ρ := hρ
    have e : (ρ * Real.cos θ) ^ 2 + (ρ * Real.sin θ) ^ 2 = ρ ^ 2 := by
      rw [mul_pow, mul_pow, ← mul_add, Real.cos_sq_add_sin_sq, mul_one]
    simp only [e]
    rw [mul_pow]
    rw [ENNReal.ofReal_mul two_pos.le, ENNReal.ofReal_ofNat]
    ring
  have h2 : ∀ w : ℝ, Real.pi * w / 2 = Real.pi / 2 * w := fun w => by ring
  simp_rw [h2]
  rw [lintegral_scale (by positivity) (fun θ => ∫⁻ b, h (-Real.log b * Real.cos θ ^ 2) ∂uniform)]
  simp_rw [h1]
  rw [lintegral_quadrant (f := fun a b => 2 * (ENNReal.ofReal (Real.exp (-(a ^ 2 + b ^ 2))) *
    h (a ^ 2))) (by unfold Function.uncurry; fun_prop)]
  have h3 : ∀ a : ℝ, ∫⁻ b in Ioi (0 : ℝ), 2 * (ENNReal.ofReal (Real.exp (-(a ^ 2 + b ^ 2))) *
      h (a ^ 2)) = ENNReal.ofReal (Real.sqrt Real.pi) *
        (ENNReal.ofReal (Real.exp (-a ^ 2)) * h (a ^ 2)) := by
    intro a
    have e : ∀ b : ℝ, 2 * (ENNReal.ofReal (Real.exp (-(a ^ 2 + b ^ 2))) * h (a ^ 2)) =
        (2 * (ENNReal.ofReal (Real.exp (-a ^ 2)) * h (a ^ 2))) *
          ENNReal.ofReal (Real.exp (-b ^ 2)) := by
      intro b
      rw [neg_add, Real.exp_add, ENNReal.ofReal_mul (Real.exp_pos _).le]
      ring
    simp_rw [e]
    rw [lintegral_const_mul _ (by fun_prop), lintegral_gauss]
    have : ENNReal.ofReal (Real.sqrt Real.pi) = 2 * ENNReal.ofReal (Real.sqrt Real.pi / 2) := by
      rw [← ENNReal.ofReal_ofNat 2, ← ENNReal.ofReal_mul two_pos.le]
      congr 1; ring
    rw [this]
    ring
  simp_rw [h3]
  rw [lintegral_const_mul _ (by fun_prop), ← mul_assoc, ← ENNReal.ofReal_mul (by positivity)]
  congr 2
  have hp := Real.pi_pos
  have : Real.sqrt Real.pi * Real.sqrt Real.pi = Real.pi := Real.mul_self_sqrt hp.le
  have hs : 0 < Real.sqrt Real.pi := Real.sqrt_pos.2 hp
  rw [eq_div_iff hs.ne', mul_assoc, this]
  field_simp

/-- **Second branch**: the speed has density `4/√π x² exp (-x²)`. -/
theorem lintegral_speedB {g : ℝ → ℝ≥0∞} (hg : Measurable g) :
    ∫⁻ a, ∫⁻ b, ∫⁻ w, g (Real.sqrt (-Real.log a - Real.log b * Real.cos (Real.pi * w / 2) *
        Real.cos (Real.pi * w / 2))) ∂uniform ∂uniform ∂uniform =
      ∫⁻ x in Ioi (0 : ℝ),
        ENNReal.ofReal (4 / Real.sqrt Real.pi * x ^ 2 * Real.exp (-x ^ 2)) * g x := by
  have e : ∀ a b w : ℝ, -Real.log a - Real.log b * Real.cos (Real.pi * w / 2) *
      Real.cos (Real.pi * w / 2) = -Real.log a + -Real.log b * Real.cos (Real.pi * w / 2) ^ 2 := by
    intros; ring
  simp_rw [e]
  have hsw : ∀ s : ℝ, ∫⁻ b, ∫⁻ w, g (Real.sqrt (s + -Real.log b *
      Real.cos (Real.pi * w / 2) ^ 2)) ∂uniform ∂uniform =
      ENNReal.ofReal (2 / Real.sqrt Real.pi) * ∫⁻ a in Ioi (0 : ℝ),
        ENNReal.ofReal (Real.exp (-a ^ 2)) * g (Real.sqrt (s + a ^ 2)) := by
    intro s
    rw [lintegral_lintegral_swap (by unfold Function.uncurry; fun_prop),
      lintegral_exp_cos (h := fun r => g (Real.sqrt (s + r))) (by fun_prop)]
  simp_rw [hsw]
  rw [lintegral_neg_log (fun s => ENNReal.ofReal (2 / Real.sqrt Real.pi) * ∫⁻ a in Ioi (0 : ℝ),
        ENNReal.ofReal (Real.exp (-a ^ 2)) * g (Real.sqrt (s + a ^ 2)))]
  have h1 : ∫⁻ s in Ioi (0 : ℝ), ENNReal.ofReal (Real.exp (-s)) *
      (ENNReal.ofReal (2 / Real.sqrt Real.pi) * ∫⁻ a in Ioi (0 : ℝ),
        ENNReal.ofReal (Real.exp (-a ^ 2)) * g (Real.sqrt (s + a ^ 2))) =
      ENNReal.ofReal (2 / Real.sqrt Real.pi) * ∫⁻ a in Ioi (0 : ℝ), ∫⁻ r in Ioi (a ^ 2),
        ENNReal.ofReal (Real.exp (-r)) * g (Real.sqrt r) := by
    rw [← lintegral_const_mul' _ _ ENNReal.ofReal_ne_top]
    simp_rw [← lintegral_exp_shift _ (fun r => g (Real.sqrt r)),
      ← lintegral_const_mul' _ _ ENNReal.ofReal_ne_top]
    rw [lintegral_lintegral_swap (by unfold Function.uncurry; fun_prop)]
    refine lintegral_congr fun a => lintegral_congr fun s => ?_
    rw [add_comm s]
    ring
  rw [h1, lintegral_above (φ := fun a => a ^ 2) (by fun_prop) (by fun_prop)]
  have h2 : ∀ r : ℝ, ENNReal.ofReal (Real.exp (-r)) * g (Real.sqrt r) *
      volume ({a | a ^ 2 < r} ∩ Ioi (0 : ℝ)) = (Ioi (0 : ℝ)).indicator (fun r =>
        ENNReal.ofReal (Real.sqrt r * Real.exp (-r)) * g (Real.sqrt r)) r := by
    intro r
    by_cases hr : 0 < r
    · have h4 : {a : ℝ | a ^ 2 < r} ∩ Ioi (0 : ℝ) = Ioo 0 (Real.sqrt r) := by
        ext x
        simp only [mem_inter_iff, mem_ofPred_eq, mem_Ioi, mem_Ioo]
        constructor
        · rintro ⟨h1, h2⟩; exact ⟨h2, Real.lt_sqrt_of_sq_lt h1⟩
        · rintro ⟨h1, h2⟩; exact ⟨(Real.lt_sqrt h1.le).1 h2, h1⟩
      rw [h4, Real.volume_Ioo, sub_zero, indicator_of_mem (by exact hr),
        ENNReal.ofReal_mul (Real.sqrt_nonneg _)]
      ring
    · have h4 : {a : ℝ | a ^ 2 < r} ∩ Ioi (0 : ℝ) = ∅ := by
        ext x
        simp only [mem_inter_iff, mem_ofPred_eq, mem_Ioi, mem_empty_iff_false, iff_false]
        rintro ⟨h1, -⟩
        nlinarith [sq_nonneg x]
      rw [h4, measure_empty, mul_zero, indicator_of_notMem (by exact hr)]
  simp_rw [h2]
  rw [lintegral_indicator measurableSet_Ioi, lintegral_sq,
    ← lintegral_const_mul' _ _ ENNReal.ofReal_ne_top]
  refine setLIntegral_congr_fun measurableSet_Ioi fun x hx => ?_
  have hx : 0 < x := hx
  simp only [Real.sqrt_sq hx.le]
  rw [← mul_assoc, ← mul_assoc, ← ENNReal.ofReal_mul (by positivity),
    ← ENNReal.ofReal_mul (by positivity)]
  congr 2
  ring

end Minimc.Spec
