import Verif.Lemmas.Maxwell
import Verif.Lemmas.Continuous

/-! # Property C59 -/

namespace Minimc.Props

open MeasureTheory Topology Spec
open Filter (Tendsto atTop)

/-- Maxwell's density is a probability density. -/
theorem integral_maxwell_one : ∫ s in Set.Ioi (0 : ℝ), maxwell 1 s = 1 := by
  have hs : Real.sqrt Real.pi ≠ 0 := (Real.sqrt_pos.2 Real.pi_pos).ne'
  have hd : ∀ x ∈ Set.Ici (0 : ℝ), HasDerivAt
      (fun x : ℝ => erf x - 2 / Real.sqrt Real.pi * (x ^ 1 * Real.exp (-x ^ 2))) (maxwell 1 x) x := by
    intro x _
    have h1 := ((hasDerivAt_pow 1 x).mul (hasDerivAt_exp_neg_sq x)).const_mul
      (2 / Real.sqrt Real.pi)
    refine HasDerivAt.congr_deriv ((hasDerivAt_erf x).sub h1) ?_
    unfold maxwell
    simp
    ring
  have hl : Tendsto (fun x : ℝ => erf x - 2 / Real.sqrt Real.pi * (x ^ 1 * Real.exp (-x ^ 2)))
      atTop (𝓝 1) := by
    have := tendsto_erf.sub ((tendsto_pow_mul_exp_neg_sq 1).const_mul (2 / Real.sqrt Real.pi))
    simpa using this
  have hp : ∀ x ∈ Set.Ioi (0 : ℝ), 0 ≤ maxwell 1 x := by
    intro x _
    unfold maxwell
    positivity
  rw [integral_Ioi_of_hasDerivAt_of_nonneg' hd hp hl, erf_zero]
  simp

theorem maxwell_scale (β s : ℝ) : maxwell β s = β * maxwell 1 (β * s) := by
  unfold maxwell
  ring_nf

/-- Maxwell's density is a probability density, whatever the most probable speed. -/
theorem integral_maxwell {β : ℝ} (hβ : 0 < β) : ∫ s in Set.Ioi (0 : ℝ), maxwell β s = 1 := by
  have h := integral_comp_mul_left_Ioi (maxwell 1) 0 hβ
  rw [mul_zero, smul_eq_mul, integral_maxwell_one, mul_one] at h
  simp_rw [maxwell_scale β]
  rw [integral_const_mul, h, mul_inv_cancel₀ hβ.ne']

theorem slowness_mul_speedOf {awr e t m : ℝ} (ha : 0 < awr) (he : 0 < e) (ht : 0 < t)
    (hm : 0 < m) : slowness (awr * m) t * speedOf m e = adjArg awr e t := by
  have hb : 0 < boltzmannMeV := by unfold boltzmannMeV; norm_num
  unfold slowness speedOf adjArg
  rw [← Real.sqrt_mul (by positivity)]
  congr 1
  rw [show boltzmann = boltzmannMeV from rfl]
  field_simp

theorem slowness_pos {M t : ℝ} (hM : 0 < M) (ht : 0 < t) : 0 < slowness M t := by
  have hb : 0 < boltzmannMeV := by unfold boltzmannMeV; norm_num
  exact Real.sqrt_pos.2 (by positivity)

theorem speedOf_pos {m e : ℝ} (hm : 0 < m) (he : 0 < e) : 0 < speedOf m e :=
  Real.sqrt_pos.2 (by positivity)

/-- **C59** The adjustment is the mean speed of the neutron relative to the atoms of a gas at the
given temperature, in units of the speed of the neutron. -/
theorem C59_adjustment {awr e t m : ℝ} (ha : 0 < awr) (he : 0 < e) (ht : 0 < t) (hm : 0 < m) :
    freeGasAdjustment awr e t =
      .ok (meanRelativeSpeed (slowness (awr * m) t) (speedOf m e) / speedOf m e) := by
  have hv := speedOf_pos hm he
  rw [freeGasAdjustment_pos ha he ht, meanRelativeSpeed_eq (slowness_pos (mul_pos ha hm) ht) hv,
    slowness_mul_speedOf ha he ht hm, mul_div_cancel_left₀ _ hv.ne']

/-- The free gas branch of the scatter cross section. -/
theorem freeGas_crossSection {p : Particle} {e t T awr S₀ a b : ℝ} {ev : ContinuousEvaluation}
    (hp : Thermal p e t T) (hn : p.type = .neutron) (hx : ev.xs.at' e = .ok S₀)
    (hiv : ev.isValid t = false) (hf : awr ≤ 1 ∨ e < 500 * boltzmannMeV * t / awr)
    (A : freeGasAdjustment awr e ev.temperature = .ok a) (B : freeGasAdjustment awr e t = .ok b) :
    (ContinuousReaction.scatter ev none awr).getCrossSection p = .ok (S₀ / a * b) := by
  have hfg : isFreeGasScatteringValid awr p t = .ok true := by
    unfold isFreeGasScatteringValid
    rw [if_neg (not_not.2 hn)]
    by_cases h1 : awr ≤ 1
    · rw [if_pos h1]; rfl
    · rw [if_neg h1, hp.energy]
      simp only [Energy.getContinuous, bind, Except.bind, noexcept_ok]
      rw [show boltzmann = boltzmannMeV from rfl, decide_eq_true (hf.resolve_left h1)]
  have hx' : ContinuousReaction.tabulated ev p = .ok S₀ := by
    unfold ContinuousReaction.tabulated
    rw [hp.energy]
    exact hx
  unfold ContinuousReaction.getCrossSection
  simp only [(temperature_of hp).1, bind, Except.bind]
  unfold ContinuousReaction.scatterXSAt
  simp only [hiv, hfg, hx', hp.energy, Energy.getContinuous, A, B, bind, Except.bind, noexcept_ok,
    Bool.false_eq_true, if_false, if_true]

/-- **C59** Where the free gas model applies to a neutron, the scatter cross section `S` at the
temperature `t` of the place and the tabulated one `S₀` at its own temperature `T₀` have the ratio of
the mean relative speeds: the rate of collisions in the hotter gas is that of atoms whose cross
section does not depend on the relative speed. -/
theorem C59_cross_section {p : Particle} {e t T T₀ awr m S₀ : ℝ} {xs : ContinuousMap}
    (hp : Thermal p e t T) (hn : p.type = .neutron) (ha : 0 < awr) (hm : 0 < m) (h0 : 0 < T₀)
    (hx : xs.at' e = .ok S₀) (hT : 1.01 * T₀ ≤ t)
    (hf : awr ≤ 1 ∨ e < 500 * boltzmannMeV * t / awr) :
    ∃ S, (ContinuousReaction.scatter ⟨xs, T₀⟩ none awr).getCrossSection p = .ok S ∧
      S * meanRelativeSpeed (slowness (awr * m) T₀) (speedOf m e) =
        S₀ * meanRelativeSpeed (slowness (awr * m) t) (speedOf m e) := by
  have he := hp.positive
  have ht : 0 < t := by linarith
  have hv := speedOf_pos hm he
  have hiv : ContinuousEvaluation.isValid ⟨xs, T₀⟩ t = false := by
    unfold ContinuousEvaluation.isValid temperatureTolerance
    rw [if_neg h0.ne', decide_eq_false_iff_not, not_lt, le_div_iff₀ h0]
    linarith
  refine ⟨_, freeGas_crossSection hp hn hx hiv hf (C59_adjustment ha he h0 hm)
    (C59_adjustment ha he ht hm), ?_⟩
  have h1 : 0 < meanRelativeSpeed (slowness (awr * m) T₀) (speedOf m e) := by
    rw [meanRelativeSpeed_eq (slowness_pos (mul_pos ha hm) h0) hv,
      slowness_mul_speedOf ha he h0 hm]
    have := one_lt_adj (adjArg_pos ha he h0)
    positivity
  field_simp

/-- **C59** The same for a table made for atoms at rest, where the relative speed is that of the
neutron. -/
theorem C59_cross_section_cold {p : Particle} {e t T awr m S₀ : ℝ} {xs : ContinuousMap}
    (hp : Thermal p e t T) (hn : p.type = .neutron) (ha : 0 < awr) (hm : 0 < m) (ht : 0 < t)
    (hx : xs.at' e = .ok S₀) (hf : awr ≤ 1 ∨ e < 500 * boltzmannMeV * t / awr) :
    ∃ S, (ContinuousReaction.scatter ⟨xs, 0⟩ none awr).getCrossSection p = .ok S ∧
      S * speedOf m e = S₀ * meanRelativeSpeed (slowness (awr * m) t) (speedOf m e) := by
  have he := hp.positive
  have hv := speedOf_pos hm he
  have hiv : ContinuousEvaluation.isValid ⟨xs, 0⟩ t = false := by
    unfold ContinuousEvaluation.isValid
    rw [if_pos rfl, decide_eq_false_iff_not, not_lt]
    exact ht.le
  refine ⟨_, freeGas_crossSection hp hn hx hiv hf freeGasAdjustment_zero
    (C59_adjustment ha he ht hm), ?_⟩
  field_simp

/-- Instance: the mean speed of a thermal neutron relative to hydrogen at 300 K is greater than its
own. -/
example : speedOf neutronMass 2.53e-8 <
    meanRelativeSpeed (slowness (0.9992 * neutronMass) 300) (speedOf neutronMass 2.53e-8) := by
  have hm : 0 < neutronMass := by unfold neutronMass; norm_num
  have hv := speedOf_pos hm (show (0 : ℝ) < 2.53e-8 by norm_num)
  rw [meanRelativeSpeed_eq (slowness_pos (by positivity) (by norm_num)) hv,
    slowness_mul_speedOf (by norm_num) (by norm_num) (by norm_num) hm]
  exact lt_mul_of_one_lt_right hv
    (one_lt_adj (adjArg_pos (by norm_num) (by norm_num) (by norm_num)))

/-- Instance: a neutron in a cell at 600 K and a table for hydrogen at 300 K. -/
example : ∃ p : Particle, ∃ S,
    (ContinuousReaction.scatter ⟨[(1, 20)], 300⟩ none 0.9992).getCrossSection p = .ok S ∧
      S * meanRelativeSpeed (slowness (0.9992 * 1) 300) (speedOf 1 2.53e-8) =
        20 * meanRelativeSpeed (slowness (0.9992 * 1) 600) (speedOf 1 2.53e-8) := by
  let c : Cell := ⟨"", [], none, .constant 600⟩
  let p : Particle := ⟨[], [], ⟨0, 0, 0⟩, ⟨1, 0, 0⟩, .continuous 2.53e-8, some c, 1, .neutron, .birth,
    none⟩
  refine ⟨p, C59_cross_section (T := 600) ⟨rfl, ⟨c, rfl, rfl, rfl⟩, by norm_num, by norm_num,
    le_refl _⟩ rfl (by norm_num) one_pos (by norm_num) ?_ (by norm_num) (Or.inl (by norm_num))⟩
  unfold ContinuousMap.at'
  norm_num [List.takeWhile, List.dropWhile]

end Minimc.Props
