import Verif.Model.Continuous
import Mathlib.Analysis.SpecialFunctions.Gaussian.GaussianIntegral
import Mathlib.MeasureTheory.Integral.IntervalIntegral.FundThmCalculus
import Mathlib.MeasureTheory.Integral.IntegralEqImproper
import Mathlib.Analysis.Calculus.Deriv.MeanValue
import Mathlib.Analysis.SpecialFunctions.ExpDeriv
import Mathlib.Analysis.SpecialFunctions.Sqrt

/-! # The error function and the free-gas adjustment -/

namespace Minimc

open MeasureTheory Filter Topology

theorem hasDerivAt_erf (x : ℝ) :
    HasDerivAt erf (2 / Real.sqrt Real.pi * Real.exp (-x ^ 2)) x := by
  have hc : _root_.Continuous fun t : ℝ => Real.exp (-t ^ 2) := by fun_prop
  have := intervalIntegral.integral_hasDerivAt_right (hc.intervalIntegrable 0 x)
    (hc.stronglyMeasurableAtFilter _ _) hc.continuousAt
  exact this.const_mul _

theorem erf_zero : erf 0 = 0 := by simp [erf]

theorem erf_strictMono : StrictMono erf := by
  refine strictMono_of_deriv_pos fun x => ?_
  rw [(hasDerivAt_erf x).deriv]
  positivity

theorem erf_pos {x : ℝ} (h : 0 < x) : 0 < erf x := by
  rw [← erf_zero]
  exact erf_strictMono h

theorem tendsto_erf : Tendsto erf atTop (𝓝 1) := by
  have hi : IntegrableOn (fun t : ℝ => Real.exp (-t ^ 2)) (Set.Ioi 0) := by
    have := (integrable_exp_neg_mul_sq (b := 1) one_pos).integrableOn (s := Set.Ioi 0)
    simpa using this
  have h1 := intervalIntegral_tendsto_integral_Ioi 0 hi tendsto_id
  have h2 : ∫ t in Set.Ioi (0 : ℝ), Real.exp (-t ^ 2) = Real.sqrt Real.pi / 2 := by
    have := integral_gaussian_Ioi 1
    simpa using this
  rw [h2] at h1
  have h3 := h1.const_mul (2 / Real.sqrt Real.pi)
  have : 2 / Real.sqrt Real.pi * (Real.sqrt Real.pi / 2) = 1 := by
    have := Real.sqrt_pos.2 Real.pi_pos
    field_simp
  rw [this] at h3
  exact h3

theorem erf_lt_one (x : ℝ) : erf x < 1 := by
  have h1 : erf x < erf (x + 1) := erf_strictMono (by linarith)
  have h2 : erf (x + 1) ≤ 1 := by
    refine ge_of_tendsto tendsto_erf ?_
    filter_upwards [eventually_ge_atTop (x + 1)] with y hy
    exact erf_strictMono.monotone hy
  linarith

/-- The adjustment as a function of the square root of its argument. -/
noncomputable def adj (y : ℝ) : ℝ :=
  (1 + 1 / (2 * y ^ 2)) * erf y + Real.exp (-y ^ 2) / (Real.sqrt Real.pi * y)

theorem adjustmentOf_sq {y : ℝ} (hy : 0 < y) : adjustmentOf (y ^ 2) = adj y := by
  unfold adjustmentOf adj
  rw [Real.sqrt_mul Real.pi_pos.le, Real.sqrt_sq hy.le]

theorem hasDerivAt_adj {y : ℝ} (hy : 0 < y) : HasDerivAt adj (-(erf y / y ^ 3)) y := by
  have hs : Real.sqrt Real.pi ≠ 0 := (Real.sqrt_pos.2 Real.pi_pos).ne'
  have hy' := hy.ne'
  have h1 : HasDerivAt (fun y : ℝ => 1 + 1 / (2 * y ^ 2)) (-(1 / y ^ 3)) y := by
    have := (((hasDerivAt_pow 2 y).const_mul 2).inv (by positivity)).const_add 1
    have e : (fun x : ℝ => 1 + (fun y => 2 * y ^ 2)⁻¹ x) = fun y => 1 + 1 / (2 * y ^ 2) := by
      ext z
      simp only [Pi.inv_apply, one_div]
    rw [e] at this
    refine this.congr_deriv ?_
    simp only [Nat.cast_ofNat, Nat.add_one_sub_one, pow_one]
    field_simp
  have h2 : HasDerivAt (fun y : ℝ => Real.exp (-y ^ 2)) (Real.exp (-y ^ 2) * (-(2 * y))) y := by
    have := (hasDerivAt_pow 2 y).neg.exp
    refine HasDerivAt.congr_deriv (f := fun y : ℝ => Real.exp (-y ^ 2)) this ?_
    simp
  have h3 : HasDerivAt (fun y : ℝ => Real.sqrt Real.pi * y) (Real.sqrt Real.pi) y := by
    simpa using (hasDerivAt_id y).const_mul (Real.sqrt Real.pi)
  have h4 := (h1.mul (hasDerivAt_erf y)).add (h2.div h3 (by positivity))
  refine HasDerivAt.congr_deriv (f := adj) h4 ?_
  field_simp
  ring

theorem adj_strictAnti : StrictAntiOn adj (Set.Ioi 0) := by
  refine strictAntiOn_of_deriv_neg (convex_Ioi 0)
    (fun y hy => (hasDerivAt_adj hy).continuousAt.continuousWithinAt) ?_
  intro y hy
  rw [interior_Ioi] at hy
  rw [(hasDerivAt_adj hy).deriv]
  have : 0 < erf y / y ^ 3 := div_pos (erf_pos hy) (pow_pos hy 3)
  linarith

theorem tendsto_adj : Tendsto adj atTop (𝓝 1) := by
  have h1 : Tendsto (fun y : ℝ => 1 / (2 * y ^ 2)) atTop (𝓝 0) := by
    have : Tendsto (fun y : ℝ => 2 * y ^ 2) atTop atTop :=
      (tendsto_pow_atTop two_ne_zero).const_mul_atTop two_pos
    have h := this.inv_tendsto_atTop
    refine h.congr fun y => ?_
    simp only [Pi.inv_apply, one_div]
  have h2 : Tendsto (fun y : ℝ => Real.exp (-y ^ 2) / (Real.sqrt Real.pi * y)) atTop (𝓝 0) := by
    have hs : 0 < Real.sqrt Real.pi := Real.sqrt_pos.2 Real.pi_pos
    have ha : Tendsto (fun y : ℝ => (Real.sqrt Real.pi * y)⁻¹) atTop (𝓝 0) :=
      (tendsto_id.const_mul_atTop hs).inv_tendsto_atTop
    refine squeeze_zero' ?_ ?_ ha
    · filter_upwards [eventually_gt_atTop 0] with y hy
      positivity
    · filter_upwards [eventually_gt_atTop 0] with y hy
      rw [div_eq_mul_inv]
      have : Real.exp (-y ^ 2) ≤ 1 := Real.exp_le_one_iff.2 (by nlinarith)
      exact mul_le_of_le_one_left (by positivity) this
  have h3 := ((tendsto_const_nhds (x := (1 : ℝ))).add h1).mul tendsto_erf |>.add h2
  simp only [add_zero, mul_one] at h3
  exact h3

theorem one_lt_adj {y : ℝ} (hy : 0 < y) : 1 < adj y := by
  have h1 : adj (y + 1) < adj y := adj_strictAnti hy (by simp; linarith) (by linarith)
  have h2 : 1 ≤ adj (y + 1) := by
    refine le_of_tendsto tendsto_adj ?_
    filter_upwards [eventually_ge_atTop (y + 1)] with z hz
    exact adj_strictAnti.antitoneOn (by simp; linarith) (by simp; linarith) hz
  linarith

/-- The square root of the argument. -/
noncomputable def adjArg (awr e t : ℝ) : ℝ := Real.sqrt (awr * (e / (boltzmann * t)))

theorem boltzmann_pos : 0 < boltzmann := by unfold boltzmann; norm_num

theorem adjArg_pos {awr e t : ℝ} (ha : 0 < awr) (he : 0 < e) (ht : 0 < t) : 0 < adjArg awr e t := by
  have := boltzmann_pos
  exact Real.sqrt_pos.2 (by positivity)

theorem freeGasAdjustment_pos {awr e t : ℝ} (ha : 0 < awr) (he : 0 < e) (ht : 0 < t) :
    freeGasAdjustment awr e t = .ok (adj (adjArg awr e t)) := by
  have hb := boltzmann_pos
  have hq : 0 < e / (boltzmann * t) := by positivity
  have harg : awr * Real.sqrt (e / (boltzmann * t)) * Real.sqrt (e / (boltzmann * t))
      = awr * (e / (boltzmann * t)) := by
    rw [mul_assoc, Real.mul_self_sqrt hq.le]
  unfold freeGasAdjustment
  rw [if_neg ht.ne']
  simp only
  rw [harg, if_neg (by push Not; exact ⟨hq.le, by positivity⟩)]
  rw [← adjustmentOf_sq (adjArg_pos ha he ht)]
  unfold adjArg
  rw [Real.sq_sqrt (by positivity)]

theorem freeGasAdjustment_zero {awr e : ℝ} : freeGasAdjustment awr e 0 = .ok 1 := by
  unfold freeGasAdjustment
  rw [if_pos rfl]

end Minimc
