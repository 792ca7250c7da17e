import Verif.Lemmas.Accuracy
import Verif.Props.Maxwell

/-! # Property C87 -/

namespace Minimc.Props

open Spec

/-- The scatter cross section outside of the range of thermal scattering data. -/
theorem scatter_value {p : Particle} {e t T awr S₀ : ℝ} {ev : ContinuousEvaluation}
    (hp : Thermal p e t T) (ha : 0 < awr) (h0 : 0 ≤ ev.temperature) (hx : ev.xs.at' e = .ok S₀) :
    (ContinuousReaction.scatter ev none awr).getCrossSection p =
      .ok (scatterValue ev awr e t S₀ p) := by
  unfold ContinuousReaction.getCrossSection
  simp only [(temperature_of hp).1, bind, Except.bind, noexcept_ok,
    scatterXSAt_eq hp.energy hp.positive ha hp.nonneg h0 hx]

/-- **C87** In material that is not colder than the table, the scatter cross section of a neutron is at
most half a percent below the one that accounts exactly for the motion of the atoms: the tabulated one
times the ratio of the mean relative speeds at the two temperatures.  It is never above it. -/
theorem C87_accuracy {p : Particle} {e t T T₀ awr S₀ : ℝ} {xs : ContinuousMap} (hp : Thermal p e t T)
    (hn : p.type = .neutron) (ha : 0 < awr) (h0 : 0 ≤ T₀) (hT : T₀ ≤ t) (hx : xs.at' e = .ok S₀)
    (hS : 0 ≤ S₀) :
    ∃ S, (ContinuousReaction.scatter ⟨xs, T₀⟩ none awr).getCrossSection p = .ok S ∧
      S ≤ S₀ * (meetingSpeed awr t e / meetingSpeed awr T₀ e) ∧
      S₀ * (meetingSpeed awr t e / meetingSpeed awr T₀ e) ≤ 1.005 * S := by
  have he := hp.positive
  refine ⟨_, scatter_value hp ha h0 hx, ?_⟩
  obtain ⟨e1, hv⟩ := meetingSpeed_adj (t := t) ha he hp.nonneg
  obtain ⟨e2, -⟩ := meetingSpeed_adj (t := T₀) ha he h0
  rw [e1, e2, mul_div_mul_left _ _ hv.ne']
  have hA := one_le_adjV ha he h0
  have hA0 : 0 < adjV awr e T₀ := by linarith
  have hm := adjV_mono ha he h0 hT
  unfold scatterValue
  split_ifs with h
  · have : S₀ / adjV awr e T₀ * adjV awr e t = S₀ * (adjV awr e t / adjV awr e T₀) := by ring
    rw [this]
    refine ⟨le_rfl, ?_⟩
    have : 0 ≤ S₀ * (adjV awr e t / adjV awr e T₀) :=
      mul_nonneg hS (div_nonneg (by linarith) hA0.le)
    linarith
  · have hr : 1 ≤ adjV awr e t / adjV awr e T₀ := by rwa [le_div_iff₀ hA0, one_mul]
    refine ⟨le_mul_of_one_le_right hS hr, ?_⟩
    rw [mul_comm]
    refine mul_le_mul_of_nonneg_right ?_ hS
    rw [div_le_iff₀ hA0]
    have h : ContinuousEvaluation.isValid ⟨xs, T₀⟩ t = true ∨ ¬FreeGasApplies awr e t p := by
      by_contra hc
      push Not at hc
      exact h ⟨by simpa using hc.1, hc.2⟩
    rcases h with h | h
    · -- the table is within one percent
      unfold ContinuousEvaluation.isValid temperatureTolerance at h
      rcases h0.eq_or_lt with h00 | h0'
      · rw [if_pos h00.symm, decide_eq_true_eq] at h
        exact absurd hp.nonneg (not_le.2 h)
      · have ht : 0 < t := h0'.trans_le hT
        rw [if_neg h0'.ne', decide_eq_true_eq, div_lt_iff₀ h0'] at h
        have h := h
        unfold adjV
        rw [if_neg ht.ne', if_neg h0'.ne']
        refine (adj_ratio ha he h0' hT).trans ?_
        refine mul_le_mul_of_nonneg_right ?_ (by linarith [one_lt_adj (adjArg_pos ha he h0')])
        rw [Real.sqrt_le_left (by norm_num), div_le_iff₀ h0']
        dsimp only at h
        nlinarith
    · -- the atoms are slow
      have hA1 : 1 < awr := by
        by_contra hc
        exact h ⟨hn, .inl (not_lt.1 hc)⟩
      have hE : 500 * boltzmann * t / awr ≤ e := by
        by_contra hc
        exact h ⟨hn, .inr (not_le.1 hc)⟩
      have : adjV awr e t ≤ 1.0011 := by
        unfold adjV
        split_ifs with ht0
        · norm_num
        · have ht : 0 < t := lt_of_le_of_ne hp.nonneg (Ne.symm ht0)
          refine adj_fast (adjArg_pos ha he ht) ?_
          have hb := boltzmann_pos
          rw [adjArg_sq ha he ht, ← mul_div_assoc, le_div_iff₀ (by positivity)]
          rw [div_le_iff₀ ha] at hE
          linarith
      nlinarith

/-- **C87** Where the free gas model is not used because the neutron is fast, the cross section is at most
0.11 percent below the exact one. -/
theorem C87_fast {p : Particle} {e t T T₀ awr S₀ : ℝ} {xs : ContinuousMap} (hp : Thermal p e t T)
    (ha : 1 < awr) (h0 : 0 ≤ T₀) (hT : T₀ ≤ t) (hx : xs.at' e = .ok S₀) (hS : 0 ≤ S₀)
    (hE : 500 * boltzmannMeV * t / awr ≤ e) :
    (ContinuousReaction.scatter ⟨xs, T₀⟩ none awr).getCrossSection p = .ok S₀ ∧
      S₀ ≤ S₀ * (meetingSpeed awr t e / meetingSpeed awr T₀ e) ∧
      S₀ * (meetingSpeed awr t e / meetingSpeed awr T₀ e) ≤ 1.0011 * S₀ := by
  have he := hp.positive
  have ha0 : 0 < awr := by linarith
  obtain ⟨e1, hv⟩ := meetingSpeed_adj (t := t) ha0 he hp.nonneg
  obtain ⟨e2, -⟩ := meetingSpeed_adj (t := T₀) ha0 he h0
  have hA := one_le_adjV ha0 he h0
  have hA0 : 0 < adjV awr e T₀ := by linarith
  have hm := adjV_mono ha0 he h0 hT
  have hno : ¬FreeGasApplies awr e t p := by
    rintro ⟨-, h | h⟩
    · linarith
    · exact absurd hE (not_le.2 h)
  refine ⟨?_, ?_, ?_⟩
  · rw [scatter_value (ev := ⟨xs, T₀⟩) hp ha0 h0 hx]
    unfold scatterValue
    rw [if_neg fun h => hno h.2]
  · rw [e1, e2, mul_div_mul_left _ _ hv.ne']
    exact le_mul_of_one_le_right hS (by rwa [le_div_iff₀ hA0, one_mul])
  · rw [e1, e2, mul_div_mul_left _ _ hv.ne', mul_comm]
    refine mul_le_mul_of_nonneg_right ?_ hS
    rw [div_le_iff₀ hA0]
    have : adjV awr e t ≤ 1.0011 := by
      unfold adjV
      split_ifs with ht0
      · norm_num
      · have ht : 0 < t := lt_of_le_of_ne hp.nonneg (Ne.symm ht0)
        refine adj_fast (adjArg_pos ha0 he ht) ?_
        have hb := boltzmann_pos
        rw [adjArg_sq ha0 he ht, ← mul_div_assoc, le_div_iff₀ (by positivity)]
        rw [show boltzmannMeV = boltzmann from rfl, div_le_iff₀ ha0] at hE
        linarith
    nlinarith

/-- **C87** The slope of the adjustment as a function of `x = sqrt(E / kT)` is the documented one
(doc/transport_methods.dox), which is never positive: the cross section is greatest where it is hottest. -/
theorem C87_slope {awr t x : ℝ} (ha : 0 < awr) (ht : 0 < t) (hx : 0 < x) :
    ∃ f : ℝ → ℝ, (∀ x, 0 < x → freeGasAdjustment awr (x ^ 2 * (boltzmannMeV * t)) t = .ok (f x)) ∧
      HasDerivAt f (-(2 / Real.sqrt Real.pi * ∫ s in (0 : ℝ)..(Real.sqrt awr * x), Real.exp (-s ^ 2)) /
        (awr * x ^ 3)) x := by
  have hb := boltzmann_pos
  have hs : 0 < Real.sqrt awr := Real.sqrt_pos.2 ha
  refine ⟨fun x => adj (Real.sqrt awr * x), fun x hx => ?_, ?_⟩
  · rw [show boltzmannMeV = boltzmann from rfl, freeGasAdjustment_pos ha (by positivity) ht]
    congr 2
    unfold adjArg
    rw [mul_div_assoc, div_self (by positivity), mul_one, Real.sqrt_mul ha.le, Real.sqrt_sq hx.le]
  · have h := (hasDerivAt_adj (mul_pos hs hx)).comp x ((hasDerivAt_id x).const_mul (Real.sqrt awr))
    refine h.congr_deriv ?_
    have e3 : (Real.sqrt awr * x) ^ 3 = awr * Real.sqrt awr * x ^ 3 := by
      have := Real.sq_sqrt ha.le
      calc (Real.sqrt awr * x) ^ 3 = Real.sqrt awr ^ 2 * Real.sqrt awr * x ^ 3 := by ring
        _ = _ := by rw [this]
    change -(erf (Real.sqrt awr * x) / (Real.sqrt awr * x) ^ 3) * (Real.sqrt awr * 1) =
      -erf (Real.sqrt awr * x) / (awr * x ^ 3)
    rw [e3]
    field_simp

/-- Violated in material colder than the table: the tabulated cross section is used as it is (C41), and
exceeds the exact one by any factor if the table is hot enough. -/
theorem C87_colder_violated {p : Particle} {e t T awr S₀ M : ℝ} {xs : ContinuousMap}
    (hp : Thermal p e t T) (ha : 0 < awr) (hx : xs.at' e = .ok S₀) (hS : 0 < S₀) (hM : 1 ≤ M) :
    ∃ T₀, t < T₀ ∧ (ContinuousReaction.scatter ⟨xs, T₀⟩ none awr).getCrossSection p = .ok S₀ ∧
      M * (S₀ * (meetingSpeed awr t e / meetingSpeed awr T₀ e)) < S₀ := by
  have he := hp.positive
  have hb := boltzmann_pos
  have hA := one_le_adjV ha he hp.nonneg
  set N := M * adjV awr e t with hN
  have hN1 : 1 ≤ N := by nlinarith
  set T₀ := awr * e / boltzmann * (8 * N) ^ 2 + t with hT0
  have hpos : 0 < awr * e / boltzmann * (8 * N) ^ 2 := by positivity
  have hT : t < T₀ := by linarith
  have h0 : 0 < T₀ := lt_of_le_of_lt hp.nonneg hT
  have hslow : N < adj (adjArg awr e T₀) := by
    refine adj_slow hN1 (adjArg_pos ha he h0) ?_
    unfold adjArg
    rw [Real.sqrt_le_left (by positivity)]
    rw [div_pow, one_pow, ← mul_div_assoc, div_le_div_iff₀ (by positivity) (by positivity), one_mul]
    have : boltzmann * T₀ = awr * e * (8 * N) ^ 2 + boltzmann * t := by
      rw [hT0]
      field_simp
    rw [this]
    have := mul_nonneg hb.le hp.nonneg
    linarith
  refine ⟨T₀, hT, ?_, ?_⟩
  · rw [scatter_value (ev := ⟨xs, T₀⟩) hp ha h0.le hx]
    unfold scatterValue
    rw [if_neg]
    rintro ⟨h, -⟩
    unfold ContinuousEvaluation.isValid temperatureTolerance at h
    rw [if_neg h0.ne', decide_eq_false_iff_not, not_lt, le_div_iff₀ h0] at h
    dsimp only at h
    linarith
  · obtain ⟨e1, hv⟩ := meetingSpeed_adj (t := t) ha he hp.nonneg
    obtain ⟨e2, -⟩ := meetingSpeed_adj (t := T₀) ha he h0.le
    rw [e1, e2, mul_div_mul_left _ _ hv.ne']
    have hA0 : adjV awr e T₀ = adj (adjArg awr e T₀) := by
      unfold adjV
      rw [if_neg h0.ne']
    rw [hA0, ← mul_div_assoc, ← mul_div_assoc, div_lt_iff₀ (by linarith)]
    nlinarith

/-- A slow neutron at a place at the given temperature. -/
noncomputable def neutronAt (t e : ℝ) : Particle :=
  ⟨[], [], ⟨0, 0, 0⟩, ⟨1, 0, 0⟩, .continuous e, some ⟨"", [], none, .constant t⟩, 1, .neutron, .birth, none⟩

theorem neutronAt_thermal {t e : ℝ} (ht : 0 ≤ t) (he : 0 < e) : Thermal (neutronAt t e) e t t :=
  ⟨rfl, ⟨_, rfl, rfl, rfl⟩, he, ht, le_rfl⟩

/-- Instance: water at 302 K and a table for 300 K. -/
example : ∃ S,
    (ContinuousReaction.scatter ⟨[(1, 20)], 300⟩ none 0.9992).getCrossSection (neutronAt 302 2.53e-8) =
        .ok S ∧
      S ≤ 20 * (meetingSpeed 0.9992 302 2.53e-8 / meetingSpeed 0.9992 300 2.53e-8) ∧
      20 * (meetingSpeed 0.9992 302 2.53e-8 / meetingSpeed 0.9992 300 2.53e-8) ≤ 1.005 * S :=
  C87_accuracy (neutronAt_thermal (by norm_num) (by norm_num)) rfl (by norm_num) (by norm_num)
    (by norm_num) (by unfold ContinuousMap.at'; norm_num [List.takeWhile, List.dropWhile])
    (by norm_num)

/-- Instance: a neutron of 1 MeV and uranium at 600 K, with a table for 300 K. -/
example : (ContinuousReaction.scatter ⟨[(1, 20)], 300⟩ none 233).getCrossSection (neutronAt 600 1) =
    .ok 20 :=
  (C87_fast (neutronAt_thermal (by norm_num) (by norm_num)) (by norm_num) (by norm_num)
    (by norm_num) (by unfold ContinuousMap.at'; norm_num [List.takeWhile, List.dropWhile])
    (by norm_num) (by unfold boltzmannMeV; norm_num)).1

/-- Instance: a table so hot that it is wrong by a factor of ten at 20 K. -/
example : ∃ T₀ : ℝ, 20 < T₀ ∧
    (ContinuousReaction.scatter ⟨[(1, 20)], T₀⟩ none 1).getCrossSection (neutronAt 20 1e-9) = .ok 20 ∧
      10 * (20 * (meetingSpeed 1 20 1e-9 / meetingSpeed 1 T₀ 1e-9)) < 20 :=
  C87_colder_violated (neutronAt_thermal (by norm_num) (by norm_num)) one_pos
    (by unfold ContinuousMap.at'; norm_num [List.takeWhile, List.dropWhile]) (by norm_num)
    (by norm_num)

end Minimc.Props
