import Verif.Lemmas.Adjustment

/-! # Property C42 -/

namespace Minimc.Props

open Filter Topology

theorem adjArg_anti_temperature {awr e t t' : ℝ} (ha : 0 < awr) (he : 0 < e) (ht : 0 < t)
    (h : t < t') : adjArg awr e t' < adjArg awr e t := by
  have hb := boltzmann_pos
  have ht' : 0 < t' := ht.trans h
  refine Real.sqrt_lt_sqrt (by positivity) ?_
  refine mul_lt_mul_of_pos_left ?_ ha
  exact div_lt_div_of_pos_left he (by positivity) (mul_lt_mul_of_pos_left h hb)

theorem adjArg_mono_energy {awr e e' t : ℝ} (ha : 0 < awr) (he : 0 < e) (ht : 0 < t)
    (h : e < e') : adjArg awr e t < adjArg awr e' t := by
  have hb := boltzmann_pos
  refine Real.sqrt_lt_sqrt (by positivity) ?_
  refine mul_lt_mul_of_pos_left ?_ ha
  exact div_lt_div_of_pos_right h (by positivity)

/-- **C42** The adjustment is defined at every positive energy and non-negative temperature.  It is
one at absolute zero and greater than one otherwise. -/
theorem C42_at_least_one {awr e t : ℝ} (ha : 0 < awr) (he : 0 < e) (ht : 0 ≤ t) :
    ∃ a, freeGasAdjustment awr e t = .ok a ∧ 1 ≤ a ∧ (a = 1 ↔ t = 0) := by
  rcases ht.eq_or_lt with rfl | ht
  · exact ⟨1, freeGasAdjustment_zero, le_refl _, by simp⟩
  · have h := one_lt_adj (adjArg_pos ha he ht)
    exact ⟨_, freeGasAdjustment_pos ha he ht, h.le, ⟨fun e => absurd e h.ne', fun e => absurd e ht.ne'⟩⟩

/-- **C42** The adjustment increases with temperature, from absolute zero on. -/
theorem C42_increases_with_temperature {awr e t t' a a' : ℝ} (ha : 0 < awr) (he : 0 < e)
    (ht : 0 ≤ t) (h : t < t') (h1 : freeGasAdjustment awr e t = .ok a)
    (h2 : freeGasAdjustment awr e t' = .ok a') : a < a' := by
  have ht' : 0 < t' := lt_of_le_of_lt ht h
  rw [freeGasAdjustment_pos ha he ht'] at h2
  cases h2
  rcases ht.eq_or_lt with rfl | ht
  · rw [freeGasAdjustment_zero] at h1
    cases h1
    exact one_lt_adj (adjArg_pos ha he ht')
  · rw [freeGasAdjustment_pos ha he ht] at h1
    cases h1
    exact adj_strictAnti (adjArg_pos ha he ht') (adjArg_pos ha he ht)
      (adjArg_anti_temperature ha he ht h)

/-- **C42** The adjustment decreases as the energy grows. -/
theorem C42_decreases_with_energy {awr e e' t a a' : ℝ} (ha : 0 < awr) (he : 0 < e)
    (ht : 0 < t) (h : e < e') (h1 : freeGasAdjustment awr e t = .ok a)
    (h2 : freeGasAdjustment awr e' t = .ok a') : a' < a := by
  have he' : 0 < e' := he.trans h
  rw [freeGasAdjustment_pos ha he ht] at h1
  rw [freeGasAdjustment_pos ha he' ht] at h2
  cases h1
  cases h2
  exact adj_strictAnti (adjArg_pos ha he ht) (adjArg_pos ha he' ht)
    (adjArg_mono_energy ha he ht h)

/-- **C42** The adjustment tends to one at high energy: above some energy it exceeds one by less
than any given amount. -/
theorem C42_tends_to_one_energy {awr t ε : ℝ} (ha : 0 < awr) (ht : 0 < t) (hε : 0 < ε) :
    ∃ E, ∀ e, E < e → ∃ a, freeGasAdjustment awr e t = .ok a ∧ a < 1 + ε := by
  obtain ⟨Y, hY⟩ := eventually_atTop.1 (tendsto_adj.eventually_lt_const (show (1:ℝ) < 1 + ε by linarith))
  have hb := boltzmann_pos
  have hk : 0 < boltzmann * t / awr := by positivity
  refine ⟨max 0 (Y ^ 2 * (boltzmann * t / awr)), fun e he => ?_⟩
  have he0 : 0 < e := lt_of_le_of_lt (le_max_left _ _) he
  refine ⟨_, freeGasAdjustment_pos ha he0 ht, hY _ ?_⟩
  apply Real.le_sqrt_of_sq_le
  have h1 : Y ^ 2 * (boltzmann * t / awr) < e := lt_of_le_of_lt (le_max_right _ _) he
  have h2 : awr * (e / (boltzmann * t)) = e / (boltzmann * t / awr) := by
    field_simp
  rw [h2, le_div_iff₀ hk]
  exact h1.le

/-- **C42** The adjustment tends to one at low temperature. -/
theorem C42_tends_to_one_temperature {awr e ε : ℝ} (ha : 0 < awr) (he : 0 < e) (hε : 0 < ε) :
    ∃ T, 0 < T ∧ ∀ t, 0 ≤ t → t < T → ∃ a, freeGasAdjustment awr e t = .ok a ∧ a < 1 + ε := by
  obtain ⟨Y, hY⟩ := eventually_atTop.1 (tendsto_adj.eventually_lt_const (show (1:ℝ) < 1 + ε by linarith))
  have hb := boltzmann_pos
  have hY1 : 0 < Y ^ 2 + 1 := by positivity
  refine ⟨awr * e / (boltzmann * (Y ^ 2 + 1)), by positivity, fun t ht h => ?_⟩
  rcases ht.eq_or_lt with rfl | ht
  · exact ⟨1, freeGasAdjustment_zero, by linarith⟩
  · refine ⟨_, freeGasAdjustment_pos ha he ht, hY _ ?_⟩
    apply Real.le_sqrt_of_sq_le
    rw [lt_div_iff₀ (by positivity)] at h
    rw [← mul_div_assoc, le_div_iff₀ (by positivity)]
    nlinarith [mul_pos hb ht]

/-- **C42** The adjustment depends on mass, energy and temperature only through their
dimensionless combination, and is the closed form of the free gas average. -/
theorem C42_formula {awr e t : ℝ} (ha : 0 < awr) (he : 0 < e) (ht : 0 < t) :
    let y := Real.sqrt (awr * (e / (boltzmann * t)))
    freeGasAdjustment awr e t = .ok ((1 + 1 / (2 * y ^ 2)) *
        (2 / Real.sqrt Real.pi * ∫ s in (0 : ℝ)..y, Real.exp (-s ^ 2)) +
      Real.exp (-y ^ 2) / (Real.sqrt Real.pi * y)) :=
  freeGasAdjustment_pos ha he ht

/-- **C42** The documented derivative: as a function of `x`, where the energy is `x²` times the
thermal energy, the adjustment has the derivative `- erf (√A x) / (A x³)`. -/
theorem C42_documented_derivative {awr t : ℝ} (ha : 0 < awr) (ht : 0 < t) :
    ∃ f : ℝ → ℝ, (∀ x, 0 < x → freeGasAdjustment awr (x ^ 2 * (boltzmann * t)) t = .ok (f x)) ∧
      ∀ x, 0 < x → HasDerivAt f
        (-((2 / Real.sqrt Real.pi * ∫ s in (0 : ℝ)..Real.sqrt awr * x, Real.exp (-s ^ 2)) /
          (awr * x ^ 3))) x := by
  have hb := boltzmann_pos
  have hs : 0 < Real.sqrt awr := Real.sqrt_pos.2 ha
  refine ⟨fun x => adj (Real.sqrt awr * x), fun x hx => ?_, fun x hx => ?_⟩
  · rw [freeGasAdjustment_pos ha (by positivity) ht]
    congr 2
    unfold adjArg
    rw [show awr * (x ^ 2 * (boltzmann * t) / (boltzmann * t)) = awr * x ^ 2 by field_simp,
      Real.sqrt_mul ha.le, Real.sqrt_sq hx.le]
  · have h1 : HasDerivAt (fun x : ℝ => Real.sqrt awr * x) (Real.sqrt awr) x := by
      simpa using (hasDerivAt_id x).const_mul (Real.sqrt awr)
    have h2 := (hasDerivAt_adj (mul_pos hs hx)).comp x h1
    refine HasDerivAt.congr_deriv (f := fun x => adj (Real.sqrt awr * x)) h2 ?_
    unfold erf
    have h3 : Real.sqrt awr ^ 2 = awr := Real.sq_sqrt ha.le
    have h4 : -((2 / Real.sqrt Real.pi * ∫ s in (0 : ℝ)..Real.sqrt awr * x, Real.exp (-s ^ 2)) /
        (awr * x ^ 3)) = -((2 / Real.sqrt Real.pi *
          ∫ s in (0 : ℝ)..Real.sqrt awr * x, Real.exp (-s ^ 2)) / (Real.sqrt awr ^ 2 * x ^ 3)) := by
      rw [h3]
    rw [h4]
    field_simp

/-- Instance: a thermal neutron on hydrogen; heating from 300 K to 600 K raises the
adjustment. -/
example : ∃ a a', freeGasAdjustment 0.9992 2.53e-8 300 = .ok a ∧
    freeGasAdjustment 0.9992 2.53e-8 600 = .ok a' ∧ 1 < a ∧ a < a' := by
  have h1 := freeGasAdjustment_pos (awr := 0.9992) (e := 2.53e-8) (t := 300) (by norm_num)
    (by norm_num) (by norm_num)
  have h2 := freeGasAdjustment_pos (awr := 0.9992) (e := 2.53e-8) (t := 600) (by norm_num)
    (by norm_num) (by norm_num)
  exact ⟨_, _, h1, h2, one_lt_adj (adjArg_pos (by norm_num) (by norm_num) (by norm_num)),
    C42_increases_with_temperature (by norm_num) (by norm_num) (by norm_num) (by norm_num) h1 h2⟩

/-- Instance of `C42_documented_derivative`: hydrogen at 300 K. -/
example : ∃ f : ℝ → ℝ, (∀ x, 0 < x → freeGasAdjustment 0.9992 (x ^ 2 * (boltzmann * 300)) 300 =
    .ok (f x)) ∧ ∀ x, 0 < x → DifferentiableAt ℝ f x := by
  obtain ⟨f, h1, h2⟩ := C42_documented_derivative (awr := 0.9992) (t := 300) (by norm_num)
    (by norm_num)
  exact ⟨f, h1, fun x hx => (h2 x hx).differentiableAt⟩

end Minimc.Props
