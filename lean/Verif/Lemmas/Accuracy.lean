import Verif.Lemmas.Maxwell
import Verif.Lemmas.Continuous
import Verif.Spec.GasWalk

/-! # Bounds of the free-gas adjustment -/

namespace Minimc

open Spec

theorem erf_le_linear {y : ℝ} (hy : 0 ≤ y) : erf y ≤ 2 / Real.sqrt Real.pi * y := by
  have hd : ∀ x : ℝ, HasDerivAt (fun x => 2 / Real.sqrt Real.pi * x - erf x)
      (2 / Real.sqrt Real.pi * 1 - 2 / Real.sqrt Real.pi * Real.exp (-x ^ 2)) x := fun x =>
    ((hasDerivAt_id x).const_mul _).sub (hasDerivAt_erf x)
  have hm : Monotone fun x => 2 / Real.sqrt Real.pi * x - erf x := by
    refine monotone_of_deriv_nonneg (fun x => (hd x).differentiableAt) fun x => ?_
    rw [(hd x).deriv]
    have h1 : Real.exp (-x ^ 2) ≤ 1 := Real.exp_le_one_iff.2 (by nlinarith)
    have h2 : 0 < 2 / Real.sqrt Real.pi := by positivity
    nlinarith
  have := hm hy
  simp only [mul_zero, erf_zero, sub_zero] at this
  linarith

theorem erf_ge {y : ℝ} (hy : 0 ≤ y) : 1 - Real.exp (-y ^ 2) ≤ Real.sqrt Real.pi * y * erf y := by
  have hs : 0 < Real.sqrt Real.pi := Real.sqrt_pos.2 Real.pi_pos
  have hd : ∀ x : ℝ, HasDerivAt (fun x => Real.sqrt Real.pi * x * erf x + Real.exp (-x ^ 2))
      (Real.sqrt Real.pi * 1 * erf x + Real.sqrt Real.pi * x *
        (2 / Real.sqrt Real.pi * Real.exp (-x ^ 2)) + Real.exp (-x ^ 2) * -(2 * x)) x := fun x => by
    refine (((hasDerivAt_id x).const_mul _).mul (hasDerivAt_erf x)).add ?_
    have := ((hasDerivAt_pow 2 x).neg).exp
    simpa using this
  have hm : MonotoneOn (fun x => Real.sqrt Real.pi * x * erf x + Real.exp (-x ^ 2)) (Set.Ici 0) := by
    refine monotoneOn_of_deriv_nonneg (convex_Ici 0)
      (fun x _ => (hd x).continuousAt.continuousWithinAt)
      (fun x _ => (hd x).differentiableAt.differentiableWithinAt) fun x hx => ?_
    rw [interior_Ici] at hx
    rw [(hd x).deriv]
    have := erf_pos hx
    have e : Real.sqrt Real.pi * 1 * erf x + Real.sqrt Real.pi * x *
        (2 / Real.sqrt Real.pi * Real.exp (-x ^ 2)) + Real.exp (-x ^ 2) * -(2 * x) =
        Real.sqrt Real.pi * erf x := by
      field_simp
      ring
    rw [e]
    positivity
  have := hm (Set.self_mem_Ici) (show y ∈ Set.Ici (0 : ℝ) from hy) hy
  simp at this
  linarith

/-- The mean relative speed in units of the most probable speed of the atoms grows with the speed of
the neutron. -/
theorem mul_adj_mono : MonotoneOn (fun y => y * adj y) (Set.Ioi 0) := by
  have hs : 0 < Real.sqrt Real.pi := Real.sqrt_pos.2 Real.pi_pos
  have hd : ∀ y : ℝ, 0 < y → HasDerivAt (fun y => y * adj y)
      (1 * adj y + y * -(erf y / y ^ 3)) y := fun y hy => (hasDerivAt_id y).mul (hasDerivAt_adj hy)
  refine monotoneOn_of_deriv_nonneg (convex_Ioi 0)
    (fun y hy => (hd y hy).continuousAt.continuousWithinAt)
    (fun y hy => (hd y (by rwa [interior_Ioi] at hy)).differentiableAt.differentiableWithinAt)
    fun y hy => ?_
  rw [interior_Ioi] at hy
  have hy : 0 < y := hy
  rw [(hd y hy).deriv]
  have h1 := erf_le_linear hy.le
  have h2 := erf_ge hy.le
  have e : 1 * adj y + y * -(erf y / y ^ 3) =
      (2 * y * (Real.sqrt Real.pi * y * erf y) - Real.sqrt Real.pi * erf y +
        2 * y * Real.exp (-y ^ 2)) / (2 * Real.sqrt Real.pi * y ^ 2) := by
    unfold adj
    field_simp
    ring
  rw [e]
  have h3 : Real.sqrt Real.pi * erf y ≤ 2 * y := by
    have := mul_le_mul_of_nonneg_left h1 hs.le
    rwa [← mul_assoc, mul_div_cancel₀ _ hs.ne'] at this
  refine div_nonneg ?_ (by positivity)
  nlinarith

/-- The adjustment of a neutron much faster than the atoms. -/
theorem adj_fast {y : ℝ} (hy : 0 < y) (h : 500 ≤ y ^ 2) : adj y ≤ 1.0011 := by
  have hs : 1 ≤ Real.sqrt Real.pi := Real.one_le_sqrt.2 (by linarith [Real.two_le_pi])
  have hy22 : 22 ≤ y := by nlinarith
  have h1 : 1 / (2 * y ^ 2) ≤ 1 / 1000 := one_div_le_one_div_of_le (by norm_num) (by linarith)
  have h0 : 0 < 1 / (2 * y ^ 2) := by positivity
  have h2 : Real.exp (-y ^ 2) ≤ 1 / 501 := by
    rw [Real.exp_neg, ← one_div]
    exact one_div_le_one_div_of_le (by norm_num) (by linarith [Real.add_one_le_exp (y ^ 2)])
  have h3 : Real.exp (-y ^ 2) / (Real.sqrt Real.pi * y) ≤ (1 / 501) / 22 := by
    refine div_le_div₀ (by norm_num) h2 (by norm_num) ?_
    nlinarith
  have h4 := erf_lt_one y
  have h5 := erf_pos hy
  unfold adj
  have h6 : (1 + 1 / (2 * y ^ 2)) * erf y ≤ 1 + 1 / 1000 := by
    calc (1 + 1 / (2 * y ^ 2)) * erf y ≤ (1 + 1 / (2 * y ^ 2)) * 1 :=
          mul_le_mul_of_nonneg_left h4.le (by linarith)
      _ ≤ _ := by linarith
  norm_num at h3 h6 ⊢
  linarith

/-- The adjustment of a slow neutron is large. -/
theorem adj_slow {M : ℝ} (hM : 1 ≤ M) {y : ℝ} (hy : 0 < y) (h : y ≤ 1 / (8 * M)) : M < adj y := by
  have hs : Real.sqrt Real.pi ≤ 2 := by
    rw [Real.sqrt_le_left (by norm_num)]
    linarith [Real.pi_le_four]
  have hs0 : 0 < Real.sqrt Real.pi := Real.sqrt_pos.2 Real.pi_pos
  have h1 : y * (8 * M) ≤ 1 := by rwa [le_div_iff₀ (by positivity)] at h
  have hy1 : y ≤ 1 / 8 := by nlinarith
  have h2 : 1 / 2 ≤ Real.exp (-y ^ 2) := by
    have := Real.add_one_le_exp (-y ^ 2)
    nlinarith
  have h3 : M < Real.exp (-y ^ 2) / (Real.sqrt Real.pi * y) := by
    rw [lt_div_iff₀ (by positivity)]
    have : M * (Real.sqrt Real.pi * y) ≤ 2 * (M * y) := by
      have := mul_le_mul_of_nonneg_right hs (show 0 ≤ M * y by positivity)
      linarith
    linarith
  unfold adj
  have := erf_pos hy
  have h0 : 0 < 1 / (2 * y ^ 2) := by positivity
  have : 0 < (1 + 1 / (2 * y ^ 2)) * erf y := by positivity
  linarith

theorem adjArg_sq {awr e t : ℝ} (ha : 0 < awr) (he : 0 < e) (ht : 0 < t) :
    adjArg awr e t ^ 2 = awr * (e / (boltzmann * t)) := by
  have := boltzmann_pos
  exact Real.sq_sqrt (by positivity)

/-- Heating the gas raises the adjustment by less than the square root of the temperature ratio. -/
theorem adj_ratio {awr e t t' : ℝ} (ha : 0 < awr) (he : 0 < e) (ht : 0 < t) (h : t ≤ t') :
    adj (adjArg awr e t') ≤ Real.sqrt (t' / t) * adj (adjArg awr e t) := by
  have hb := boltzmann_pos
  have ht' : 0 < t' := ht.trans_le h
  have h0 := adjArg_pos ha he ht
  have h0' := adjArg_pos ha he ht'
  have e1 : adjArg awr e t = Real.sqrt (t' / t) * adjArg awr e t' := by
    unfold adjArg
    rw [← Real.sqrt_mul (by positivity)]
    congr 1
    field_simp
  have hle : adjArg awr e t' ≤ adjArg awr e t := by
    rw [e1]
    refine le_mul_of_one_le_left h0'.le (Real.one_le_sqrt.2 ?_)
    rwa [le_div_iff₀ ht, one_mul]
  have := mul_adj_mono (show adjArg awr e t' ∈ Set.Ioi (0 : ℝ) from h0') h0 hle
  dsimp only at this
  rw [e1] at this ⊢
  rw [← e1] at this ⊢
  have h2 : adjArg awr e t' * adj (adjArg awr e t') ≤
      adjArg awr e t' * (Real.sqrt (t' / t) * adj (adjArg awr e t)) := by
    calc _ ≤ adjArg awr e t * adj (adjArg awr e t) := this
      _ = (Real.sqrt (t' / t) * adjArg awr e t') * adj (adjArg awr e t) := by rw [← e1]
      _ = _ := by ring
  exact le_of_mul_le_mul_left h2 h0'

theorem meetingSpeed_adj {awr t e : ℝ} (ha : 0 < awr) (he : 0 < e) (ht : 0 ≤ t) :
    meetingSpeed awr t e = speedOf neutronMass e * adjV awr e t ∧ 0 < speedOf neutronMass e := by
  have hb : 0 < boltzmannMeV := by unfold boltzmannMeV; norm_num
  have hm : 0 < neutronMass := by unfold neutronMass; norm_num
  have hv : 0 < speedOf neutronMass e := Real.sqrt_pos.2 (by positivity)
  refine ⟨?_, hv⟩
  unfold meetingSpeed adjV
  split_ifs with h
  · rw [mul_one]
  · have ht : 0 < t := lt_of_le_of_ne ht (Ne.symm h)
    have hs : 0 < slowness (awr * neutronMass) t := Real.sqrt_pos.2 (by positivity)
    rw [meanRelativeSpeed_eq hs hv]
    congr 2
    unfold slowness speedOf adjArg
    rw [← Real.sqrt_mul (by positivity)]
    congr 1
    rw [show boltzmann = boltzmannMeV from rfl]
    field_simp

end Minimc
