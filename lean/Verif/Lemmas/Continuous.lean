import Verif.Spec.Continuous
import Verif.Lemmas.Adjustment
import Verif.Lemmas.Select
import Verif.Lemmas.Keeps

/-! # Lemmas about continuous-energy cross sections -/

namespace Minimc

open Classical Spec

/-- The adjustment for all non-negative temperatures. -/
noncomputable def adjV (awr e t : ℝ) : ℝ := if t = 0 then 1 else adj (adjArg awr e t)

theorem freeGasAdjustment_eq {awr e t : ℝ} (ha : 0 < awr) (he : 0 < e) (ht : 0 ≤ t) :
    freeGasAdjustment awr e t = .ok (adjV awr e t) := by
  unfold adjV
  split_ifs with h
  · rw [h, freeGasAdjustment_zero]
  · exact freeGasAdjustment_pos ha he (lt_of_le_of_ne ht (Ne.symm h))

theorem one_le_adjV {awr e t : ℝ} (ha : 0 < awr) (he : 0 < e) (ht : 0 ≤ t) : 1 ≤ adjV awr e t := by
  unfold adjV
  split_ifs with h
  · exact le_refl _
  · exact (one_lt_adj (adjArg_pos ha he (lt_of_le_of_ne ht (Ne.symm h)))).le

theorem adjV_mono {awr e t t' : ℝ} (ha : 0 < awr) (he : 0 < e) (ht : 0 ≤ t) (h : t ≤ t') :
    adjV awr e t ≤ adjV awr e t' := by
  have hb := boltzmann_pos
  by_cases h0 : t = 0
  · have : adjV awr e t = 1 := by unfold adjV; rw [if_pos h0]
    rw [this]
    exact one_le_adjV ha he (ht.trans h)
  · have hp : 0 < t := lt_of_le_of_ne ht (Ne.symm h0)
    have hp' : 0 < t' := hp.trans_le h
    unfold adjV
    rw [if_neg h0, if_neg hp'.ne']
    refine adj_strictAnti.antitoneOn (adjArg_pos ha he hp') (adjArg_pos ha he hp) ?_
    refine Real.sqrt_le_sqrt ?_
    refine mul_le_mul_of_nonneg_left ?_ ha.le
    exact div_le_div_of_nonneg_left he.le (by positivity) (mul_le_mul_of_nonneg_left h hb.le)

/-- Free-gas scattering is used. -/
def FreeGasApplies (awr e t : ℝ) (p : Particle) : Prop :=
  p.type = .neutron ∧ (awr ≤ 1 ∨ e < 500 * boltzmann * t / awr)

theorem isFreeGasScatteringValid_eq {awr e t : ℝ} {p : Particle} (he : p.energy = .continuous e) :
    isFreeGasScatteringValid awr p t = .ok (decide (FreeGasApplies awr e t p)) := by
  unfold isFreeGasScatteringValid FreeGasApplies
  rw [he]
  by_cases h1 : p.type = .neutron
  · by_cases h2 : awr ≤ 1
    · simp [h1, h2, noexcept]
    · simp [h1, h2, noexcept, Energy.getContinuous, bind, Except.bind]
  · simp [h1, noexcept]

/-- The scatter cross section at a temperature. -/
noncomputable def scatterValue (ev : ContinuousEvaluation) (awr e t v : ℝ) (p : Particle) : ℝ :=
  if ev.isValid t = false ∧ FreeGasApplies awr e t p then
    v / adjV awr e ev.temperature * adjV awr e t
  else v

theorem scatterXSAt_eq {ev : ContinuousEvaluation} {awr e t v : ℝ} {p : Particle}
    (he : p.energy = .continuous e) (he0 : 0 < e) (ha : 0 < awr) (ht : 0 ≤ t)
    (hev : 0 ≤ ev.temperature) (hv : ev.xs.at' e = .ok v) :
    ContinuousReaction.scatterXSAt ev awr p t = .ok (scatterValue ev awr e t v p) := by
  unfold ContinuousReaction.scatterXSAt scatterValue ContinuousReaction.tabulated
  rw [isFreeGasScatteringValid_eq he, he]
  simp only [Energy.getContinuous, bind, Except.bind, hv, freeGasAdjustment_eq ha he0 hev,
    freeGasAdjustment_eq ha he0 ht, decide_eq_true_eq]
  cases h : ev.isValid t
  · by_cases h2 : FreeGasApplies awr e t p <;> simp [h2]
  · simp

theorem isValid_mono {ev : ContinuousEvaluation} {t t' : ℝ} (hev : 0 ≤ ev.temperature)
    (h : t ≤ t') (hv : ev.isValid t' = true) : ev.isValid t = true := by
  unfold ContinuousEvaluation.isValid at *
  split_ifs at * with h0
  · simp only [decide_eq_true_eq] at *
    linarith
  · simp only [decide_eq_true_eq] at *
    have hp : 0 < ev.temperature := lt_of_le_of_ne hev (Ne.symm h0)
    refine lt_of_le_of_lt ?_ hv
    exact div_le_div_of_nonneg_right (by linarith) hp.le

/-- Requests that the table is not valid for are at or above its temperature. -/
theorem le_of_not_isValid {ev : ContinuousEvaluation} {t : ℝ} (hev : 0 ≤ ev.temperature)
    (ht : 0 ≤ t) (hv : ev.isValid t = false) : ev.temperature ≤ t := by
  unfold ContinuousEvaluation.isValid at hv
  split_ifs at hv with h0
  · rw [h0]; exact ht
  · simp only [decide_eq_false_iff_not, not_lt] at hv
    have hp : 0 < ev.temperature := lt_of_le_of_ne hev (Ne.symm h0)
    have h1 : temperatureTolerance = (0.01 : ℝ) := rfl
    rw [h1, le_div_iff₀ hp] at hv
    nlinarith

theorem freeGasApplies_mono {awr e t t' : ℝ} {p : Particle} (ha : 0 < awr) (h : t ≤ t')
    (hf : FreeGasApplies awr e t p) : FreeGasApplies awr e t' p := by
  refine ⟨hf.1, hf.2.imp id fun h2 => lt_of_lt_of_le h2 ?_⟩
  have hb := boltzmann_pos
  refine div_le_div_of_nonneg_right ?_ ha.le
  exact mul_le_mul_of_nonneg_left h (by positivity)

theorem table_le_scatterValue {ev : ContinuousEvaluation} {awr e t v : ℝ} {p : Particle}
    (he0 : 0 < e) (ha : 0 < awr) (ht : 0 ≤ t) (hev : 0 ≤ ev.temperature) (hv : 0 ≤ v) :
    v ≤ scatterValue ev awr e t v p := by
  unfold scatterValue
  split_ifs with h
  · have h1 := one_le_adjV ha he0 hev
    have h2 := adjV_mono ha he0 hev (le_of_not_isValid hev ht h.1)
    rw [div_mul_eq_mul_div, le_div_iff₀ (by linarith)]
    exact mul_le_mul_of_nonneg_left h2 hv
  · exact le_refl _

theorem scatterValue_mono {ev : ContinuousEvaluation} {awr e t t' v : ℝ} {p : Particle}
    (he0 : 0 < e) (ha : 0 < awr) (ht : 0 ≤ t) (h : t ≤ t') (hev : 0 ≤ ev.temperature)
    (hv : 0 ≤ v) : scatterValue ev awr e t v p ≤ scatterValue ev awr e t' v p := by
  by_cases hc : ev.isValid t = false ∧ FreeGasApplies awr e t p
  · have hn : ev.isValid t' = false := by
      by_contra hn
      have := isValid_mono hev h (by simpa using hn)
      rw [hc.1] at this
      cases this
    unfold scatterValue
    rw [if_pos hc, if_pos ⟨hn, freeGasApplies_mono ha h hc.2⟩]
    have h1 := one_le_adjV ha he0 hev
    exact mul_le_mul_of_nonneg_left (adjV_mono ha he0 ht h) (by positivity)
  · have : scatterValue ev awr e t v p = v := by
      unfold scatterValue
      rw [if_neg hc]
    rw [this]
    exact table_le_scatterValue he0 ha (ht.trans h) hev hv

theorem thermal_isValid {s : ThermalScattering} {p : Particle} {e : ℝ}
    (he : p.energy = .continuous e) : s.isValid p = .ok (decide (Covers s p e)) := by
  unfold ThermalScattering.isValid Covers
  rw [he]
  simp only [Energy.getContinuous, bind, Except.bind, noexcept_ok]
  by_cases h1 : p.type = .neutron <;> by_cases h2 : e < s.cutoffEnergy <;> simp [h1, h2]

theorem temperature_of {p : Particle} {e t T : ℝ} (h : Thermal p e t T) :
    p.temperatureAt = .ok t ∧ p.temperatureUpper = .ok T := by
  obtain ⟨c, h1, h2, h3⟩ := h.cell
  unfold Particle.temperatureAt Particle.temperatureUpper Particle.getCell
  rw [h1]
  simp only [bind, Except.bind, h2, h3, and_self]

/-- A reaction's cross section lies between zero and its majorant, and its majorant is not below the
table unless thermal scattering data applies. -/
theorem reaction_bounds {p : Particle} {e t T v : ℝ} (hp : Thermal p e t T)
    {r : ContinuousReaction} (h : GoodReaction p e t r v) :
    ∃ a b m, r.getCrossSection p = .ok a ∧ r.getMajorant p = .ok b ∧ r.modifiesTotal p = .ok m ∧
      0 ≤ a ∧ a ≤ b ∧ (m = false → v ≤ b) := by
  obtain ⟨ht, hT⟩ := temperature_of hp
  have hT0 : 0 ≤ T := hp.nonneg.trans hp.bound
  cases r with
  | capture ev =>
    refine ⟨v, v, false, ?_, ?_, rfl, h.nonneg, le_refl _, fun _ => le_refl _⟩ <;>
    · have := h.table
      unfold ContinuousReaction.evaluation at this
      first
      | unfold ContinuousReaction.getCrossSection
      | unfold ContinuousReaction.getMajorant
      unfold ContinuousReaction.tabulated
      rw [hp.energy]
      simp only [Energy.getContinuous, bind, Except.bind, this, noexcept_ok]
  | fission ev nu =>
    refine ⟨v, v, false, ?_, ?_, rfl, h.nonneg, le_refl _, fun _ => le_refl _⟩ <;>
    · have := h.table
      unfold ContinuousReaction.evaluation at this
      first
      | unfold ContinuousReaction.getCrossSection
      | unfold ContinuousReaction.getMajorant
      unfold ContinuousReaction.tabulated
      rw [hp.energy]
      simp only [Energy.getContinuous, bind, Except.bind, this, noexcept_ok]
  | scatter ev tsl awr =>
    have ha := h.mass ev tsl awr rfl
    have hev : 0 ≤ ev.temperature := h.temperature
    have e1 := scatterXSAt_eq hp.energy hp.positive ha hp.nonneg hev h.table
    have e2 := scatterXSAt_eq hp.energy hp.positive ha hT0 hev h.table
    have l1 := scatterValue_mono (p := p) hp.positive ha hp.nonneg hp.bound hev h.nonneg
    have l2 := table_le_scatterValue (p := p) hp.positive ha hp.nonneg hev h.nonneg
    have l3 := table_le_scatterValue (p := p) hp.positive ha hT0 hev h.nonneg
    have hv := h.nonneg
    cases tsl with
    | none =>
      refine ⟨_, _, false, ?_, ?_, rfl, le_trans hv l2, l1, fun _ => l3⟩
      · unfold ContinuousReaction.getCrossSection
        simp only [ht, bind, Except.bind, e1, noexcept_ok]
      · unfold ContinuousReaction.getMajorant
        simp only [hT, bind, Except.bind, e2, noexcept_ok]
    | some s =>
      by_cases hc : Covers s p e
      · obtain ⟨a, b, h1, h2, h3, h4⟩ := h.thermal ev s awr rfl hc
        refine ⟨a, b, true, ?_, ?_, ?_, h3, h4, by simp⟩
        · unfold ContinuousReaction.getCrossSection ThermalScattering.getTotal
          simp only [thermal_isValid hp.energy, hc, decide_true, if_true, bind, Except.bind,
            hp.energy, Energy.getContinuous, ht, h1, noexcept_ok]
        · unfold ContinuousReaction.getMajorant ThermalScattering.getMajorant
          simp only [thermal_isValid hp.energy, hc, decide_true, if_true, bind, Except.bind,
            hp.energy, Energy.getContinuous, h2, noexcept_ok]
        · unfold ContinuousReaction.modifiesTotal ContinuousReaction.thermal
          simp only [thermal_isValid hp.energy, hc, decide_true]
      · refine ⟨_, _, false, ?_, ?_, ?_, le_trans hv l2, l1, fun _ => l3⟩
        · unfold ContinuousReaction.getCrossSection
          simp only [thermal_isValid hp.energy, hc, decide_false, Bool.false_eq_true, if_false,
            bind, Except.bind, ht, e1, noexcept_ok]
        · unfold ContinuousReaction.getMajorant
          simp only [thermal_isValid hp.energy, hc, decide_false, Bool.false_eq_true, if_false,
            bind, Except.bind, hT, e2, noexcept_ok]
        · unfold ContinuousReaction.modifiesTotal ContinuousReaction.thermal
          simp only [thermal_isValid hp.energy, hc, decide_false]

end Minimc
