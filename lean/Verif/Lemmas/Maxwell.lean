import Verif.Spec.Maxwell
import Verif.Lemmas.Adjustment
import Mathlib.Analysis.SpecialFunctions.Pow.Deriv
import Mathlib.Analysis.SpecialFunctions.Integrals.Basic

/-! # Mean relative speed in a Maxwellian gas -/

namespace Minimc

open MeasureTheory Filter Topology Spec

theorem sq_rpow_three_halves (a : ℝ) : (a ^ 2) ^ (3 / 2 : ℝ) = |a| ^ 3 := by
  rw [← sq_abs, ← Real.rpow_natCast, ← Real.rpow_mul (abs_nonneg a), ← Real.rpow_natCast]
  norm_num

/-- Relative speed averaged over directions. -/
theorem integral_relativeSpeed {v s : ℝ} (hv : 0 < v) (hs : 0 < s) :
    ∫ μ in (-1 : ℝ)..1, relativeSpeed v s μ = ((v + s) ^ 3 - |v - s| ^ 3) / (3 * v * s) := by
  have hd : ∀ μ ∈ Set.uIcc (-1 : ℝ) 1, HasDerivAt
      (fun μ : ℝ => -(v ^ 2 + s ^ 2 - 2 * v * s * μ) ^ (3 / 2 : ℝ) / (3 * v * s))
      (relativeSpeed v s μ) μ := by
    intro μ _
    have h1 : HasDerivAt (fun μ : ℝ => v ^ 2 + s ^ 2 - 2 * v * s * μ) (-(2 * v * s)) μ := by
      have := ((hasDerivAt_id μ).const_mul (2 * v * s)).const_sub (v ^ 2 + s ^ 2)
      simpa using this
    have h2 := (h1.rpow_const (p := 3 / 2) (Or.inr (by norm_num))).neg.div_const (3 * v * s)
    refine h2.congr_deriv ?_
    unfold relativeSpeed
    rw [Real.sqrt_eq_rpow, show (3 / 2 - 1 : ℝ) = 1 / 2 by norm_num]
    field_simp
  have hc : _root_.Continuous fun μ : ℝ => relativeSpeed v s μ := by
    unfold relativeSpeed
    fun_prop
  rw [intervalIntegral.integral_eq_sub_of_hasDerivAt hd (hc.intervalIntegrable _ _)]
  have e1 : v ^ 2 + s ^ 2 - 2 * v * s * 1 = (v - s) ^ 2 := by ring
  have e2 : v ^ 2 + s ^ 2 - 2 * v * s * (-1) = (v + s) ^ 2 := by ring
  rw [e1, e2, sq_rpow_three_halves, sq_rpow_three_halves, abs_of_pos (show 0 < v + s by linarith)]
  ring

theorem hasDerivAt_exp_neg_sq (x : ℝ) :
    HasDerivAt (fun x : ℝ => Real.exp (-x ^ 2)) (-(2 * x) * Real.exp (-x ^ 2)) x := by
  have := (hasDerivAt_pow 2 x).neg.exp
  refine HasDerivAt.congr_deriv (f := fun y : ℝ => Real.exp (-y ^ 2)) this ?_
  simp
  ring

theorem tendsto_pow_mul_exp_neg_sq (n : ℕ) :
    Tendsto (fun x : ℝ => x ^ n * Real.exp (-x ^ 2)) atTop (𝓝 0) := by
  have h := Real.tendsto_pow_mul_exp_neg_atTop_nhds_zero n
  refine squeeze_zero' ?_ ?_ h
  · filter_upwards [eventually_ge_atTop 0] with x hx
    positivity
  · filter_upwards [eventually_ge_atTop 1] with x hx
    have : x ≤ x ^ 2 := by nlinarith
    gcongr

/-- The part of the average with targets slower than the neutron. -/
theorem integral_slow (y : ℝ) :
    ∫ x in (0 : ℝ)..y, (6 * x ^ 2 * y ^ 2 + 2 * x ^ 4) * Real.exp (-x ^ 2) =
      -(4 * y ^ 3 + 3 / 2 * y) * Real.exp (-y ^ 2) +
        (3 + 6 * y ^ 2) / 2 * (Real.sqrt Real.pi / 2 * erf y) := by
  have hs : Real.sqrt Real.pi ≠ 0 := (Real.sqrt_pos.2 Real.pi_pos).ne'
  have hd : ∀ x ∈ Set.uIcc (0 : ℝ) y, HasDerivAt
      (fun x : ℝ => (-x ^ 3 - (3 + 6 * y ^ 2) / 2 * x) * Real.exp (-x ^ 2) +
        (3 + 6 * y ^ 2) / 2 * (Real.sqrt Real.pi / 2 * erf x))
      ((6 * x ^ 2 * y ^ 2 + 2 * x ^ 4) * Real.exp (-x ^ 2)) x := by
    intro x _
    have h1 : HasDerivAt (fun x : ℝ => -x ^ 3 - (3 + 6 * y ^ 2) / 2 * x)
        (-(3 * x ^ 2) - (3 + 6 * y ^ 2) / 2) x := by
      have := (hasDerivAt_pow 3 x).neg.sub ((hasDerivAt_id x).const_mul ((3 + 6 * y ^ 2) / 2))
      refine HasDerivAt.congr_deriv (f := fun x : ℝ => -x ^ 3 - (3 + 6 * y ^ 2) / 2 * x) this ?_
      simp
    have h2 := (h1.mul (hasDerivAt_exp_neg_sq x)).add
      (((hasDerivAt_erf x).const_mul (Real.sqrt Real.pi / 2)).const_mul ((3 + 6 * y ^ 2) / 2))
    refine HasDerivAt.congr_deriv h2 ?_
    field_simp
    ring
  rw [intervalIntegral.integral_eq_sub_of_hasDerivAt hd
    (Continuous.intervalIntegrable (by fun_prop) _ _), erf_zero]
  simp
  ring

/-- The part of the average with targets faster than the neutron. -/
theorem integral_fast {y : ℝ} (hy : 0 < y) :
    IntegrableOn (fun x => (6 * x ^ 3 * y + 2 * x * y ^ 3) * Real.exp (-x ^ 2)) (Set.Ioi y) ∧
    ∫ x in Set.Ioi y, (6 * x ^ 3 * y + 2 * x * y ^ 3) * Real.exp (-x ^ 2) =
      (4 * y ^ 3 + 3 * y) * Real.exp (-y ^ 2) := by
  have hd : ∀ x ∈ Set.Ici y, HasDerivAt
      (fun x : ℝ => -(3 * x ^ 2 * y + 3 * y + y ^ 3) * Real.exp (-x ^ 2))
      ((6 * x ^ 3 * y + 2 * x * y ^ 3) * Real.exp (-x ^ 2)) x := by
    intro x _
    have h1 : HasDerivAt (fun x : ℝ => -(3 * x ^ 2 * y + 3 * y + y ^ 3)) (-(6 * x * y)) x := by
      have := ((((hasDerivAt_pow 2 x).const_mul 3).mul_const y).add_const (3 * y)).add_const (y ^ 3)
      refine HasDerivAt.congr_deriv (f := fun x : ℝ => -(3 * x ^ 2 * y + 3 * y + y ^ 3)) this.neg ?_
      simp only [Nat.cast_ofNat, Nat.add_one_sub_one, pow_one]
      ring
    refine HasDerivAt.congr_deriv (h1.mul (hasDerivAt_exp_neg_sq x)) ?_
    ring
  have hl : Tendsto (fun x : ℝ => -(3 * x ^ 2 * y + 3 * y + y ^ 3) * Real.exp (-x ^ 2)) atTop
      (𝓝 0) := by
    have h1 := (tendsto_pow_mul_exp_neg_sq 2).const_mul (-(3 * y))
    have h2 := (tendsto_pow_mul_exp_neg_sq 0).const_mul (-(3 * y + y ^ 3))
    have := h1.add h2
    simp only [mul_zero, add_zero] at this
    refine this.congr fun x => ?_
    ring
  have hp : ∀ x ∈ Set.Ioi y, 0 ≤ (6 * x ^ 3 * y + 2 * x * y ^ 3) * Real.exp (-x ^ 2) := by
    intro x hx
    have : 0 < x := hy.trans hx
    positivity
  refine ⟨integrableOn_Ioi_deriv_of_nonneg' hd hp hl, ?_⟩
  rw [integral_Ioi_of_hasDerivAt_of_nonneg' hd hp hl]
  ring

/-- The mean relative speed where speeds are in units of the most probable one. -/
theorem meanRelativeSpeed_one {y : ℝ} (hy : 0 < y) : meanRelativeSpeed 1 y = y * adj y := by
  have hs : 0 < Real.sqrt Real.pi := Real.sqrt_pos.2 Real.pi_pos
  obtain ⟨hi, hf⟩ := integral_fast hy
  unfold meanRelativeSpeed
  set c := 2 / (3 * Real.sqrt Real.pi * y) with hc
  have e1 : ∀ x ∈ Set.Ioc (0 : ℝ) y,
      maxwell 1 x * ((∫ μ in (-1 : ℝ)..1, relativeSpeed y x μ) / 2) =
        c * ((6 * x ^ 2 * y ^ 2 + 2 * x ^ 4) * Real.exp (-x ^ 2)) := by
    rintro x ⟨h0, h1⟩
    rw [integral_relativeSpeed hy h0, abs_of_nonneg (by linarith)]
    unfold maxwell
    rw [hc]
    simp only [one_mul, one_pow, mul_one]
    field_simp
    ring
  have e2 : ∀ x ∈ Set.Ioi y,
      maxwell 1 x * ((∫ μ in (-1 : ℝ)..1, relativeSpeed y x μ) / 2) =
        c * ((6 * x ^ 3 * y + 2 * x * y ^ 3) * Real.exp (-x ^ 2)) := by
    intro x h1
    have h1' : y < x := h1
    rw [integral_relativeSpeed hy (hy.trans h1'), abs_of_neg (by linarith)]
    have h0 : 0 < x := hy.trans h1'
    unfold maxwell
    rw [hc]
    simp only [one_mul, one_pow, mul_one]
    field_simp
    ring
  have hi1 : IntegrableOn (fun x => (6 * x ^ 2 * y ^ 2 + 2 * x ^ 4) * Real.exp (-x ^ 2))
      (Set.Ioc 0 y) :=
    ((by fun_prop : _root_.Continuous fun x : ℝ =>
      (6 * x ^ 2 * y ^ 2 + 2 * x ^ 4) * Real.exp (-x ^ 2)).integrableOn_Icc).mono_set
      Set.Ioc_subset_Icc_self
  rw [← Set.Ioc_union_Ioi_eq_Ioi hy.le, setIntegral_union Set.Ioc_disjoint_Ioi_same measurableSet_Ioi
    ((integrableOn_congr_fun e1 measurableSet_Ioc).2 (hi1.const_mul c))
    ((integrableOn_congr_fun e2 measurableSet_Ioi).2 (hi.const_mul c)),
    setIntegral_congr_fun measurableSet_Ioc e1, setIntegral_congr_fun measurableSet_Ioi e2,
    integral_const_mul, integral_const_mul, hf, ← intervalIntegral.integral_of_le hy.le,
    integral_slow, hc]
  unfold adj
  field_simp
  ring

theorem relativeSpeed_scale {β : ℝ} (hβ : 0 < β) (v s μ : ℝ) :
    relativeSpeed (β * v) (β * s) μ = β * relativeSpeed v s μ := by
  unfold relativeSpeed
  rw [show (β * v) ^ 2 + (β * s) ^ 2 - 2 * (β * v) * (β * s) * μ =
    β ^ 2 * (v ^ 2 + s ^ 2 - 2 * v * s * μ) by ring, Real.sqrt_mul (sq_nonneg β),
    Real.sqrt_sq hβ.le]

theorem meanRelativeSpeed_scale {β : ℝ} (hβ : 0 < β) (v : ℝ) :
    meanRelativeSpeed β v = meanRelativeSpeed 1 (β * v) / β := by
  unfold meanRelativeSpeed
  have h := integral_comp_mul_left_Ioi
    (fun s => maxwell 1 s * ((∫ μ in (-1 : ℝ)..1, relativeSpeed (β * v) s μ) / 2)) 0 hβ
  rw [mul_zero, smul_eq_mul] at h
  rw [div_eq_inv_mul, ← h]
  refine setIntegral_congr_fun measurableSet_Ioi fun s _ => ?_
  simp only [relativeSpeed_scale hβ, intervalIntegral.integral_const_mul]
  unfold maxwell
  ring_nf

/-- The mean relative speed in closed form. -/
theorem meanRelativeSpeed_eq {β v : ℝ} (hβ : 0 < β) (hv : 0 < v) :
    meanRelativeSpeed β v = v * adj (β * v) := by
  rw [meanRelativeSpeed_scale hβ, meanRelativeSpeed_one (mul_pos hβ hv)]
  field_simp

end Minimc
