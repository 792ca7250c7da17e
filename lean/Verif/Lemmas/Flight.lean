import Verif.Spec.Flight
import Verif.Lemmas.Sequence
import Mathlib.MeasureTheory.Measure.Prod
import Mathlib.MeasureTheory.Integral.Prod
import Mathlib.MeasureTheory.Constructions.BorelSpace.Order
import Mathlib.MeasureTheory.Function.SpecialFunctions.Basic
import Mathlib.Analysis.SpecialFunctions.Integrals.Basic

/-! # The length of a flight made of several tentative ones -/

namespace Minimc.Spec

open MeasureTheory Finset

/-- A sequence with a given first element and remainder. -/
def consSeq (x : ℝ × (ℕ → ℝ)) : ℕ → ℝ
  | 0 => x.1
  | n + 1 => x.2 n

theorem measurable_consSeq : Measurable consSeq := by
  refine measurable_pi_iff.2 fun n => ?_
  cases n with
  | zero => exact measurable_fst
  | succ n => exact (measurable_pi_apply n).comp measurable_snd

/-- The first number of an independent sequence is independent of the rest. -/
theorem uniforms_cons : (uniform.prod uniforms).map consSeq = uniforms := by
  unfold uniforms
  refine Measure.eq_infinitePi _ fun s t ht => ?_
  have hm : MeasurableSet (Set.pi (s : Set ℕ) t) :=
    MeasurableSet.pi (Finset.countable_toSet _) fun i _ => ht i
  rw [Measure.map_apply measurable_consSeq hm]
  set s' : Finset ℕ := (s.filter (0 < ·)).image (· - 1) with hs'
  have hmem : ∀ n, n ∈ s' ↔ n + 1 ∈ s := by
    intro n
    simp only [hs', mem_image, mem_filter]
    constructor
    · rintro ⟨m, ⟨h1, h2⟩, rfl⟩
      rwa [Nat.sub_add_cancel h2]
    · intro h
      exact ⟨n + 1, ⟨h, by omega⟩, rfl⟩
  have hpre : consSeq ⁻¹' (Set.pi (s : Set ℕ) t) =
      (if 0 ∈ s then t 0 else Set.univ) ×ˢ Set.pi (s' : Set ℕ) (fun n => t (n + 1)) := by
    ext ⟨x, w⟩
    simp only [Set.mem_preimage, Set.mem_pi, Set.mem_prod, Finset.mem_coe, hmem]
    constructor
    · intro h
      refine ⟨?_, fun n hn => h (n + 1) hn⟩
      split_ifs with h0
      · exact h 0 h0
      · trivial
    · rintro ⟨h1, h2⟩ n hn
      cases n with
      | zero => rw [if_pos hn] at h1; exact h1
      | succ n => exact h2 n hn
  rw [hpre, Measure.prod_prod, Measure.infinitePi_pi _ (fun n _ => ht _)]
  have hprod : ∏ n ∈ s', uniform (t (n + 1)) = ∏ n ∈ s.filter (0 < ·), uniform (t n) := by
    rw [hs', prod_image]
    · refine prod_congr rfl fun n hn => ?_
      rw [Nat.sub_add_cancel (mem_filter.1 hn).2]
    · intro a ha b hb hab
      have h1 := (mem_filter.1 ha).2
      have h2 := (mem_filter.1 hb).2
      simp only at hab
      omega
  rw [hprod]
  by_cases h0 : 0 ∈ s
  · rw [if_pos h0]
    have : s.filter (0 < ·) = s.erase 0 := by
      ext n
      simp only [mem_filter, mem_erase]
      constructor
      · rintro ⟨h1, h2⟩; exact ⟨by omega, h1⟩
      · rintro ⟨h1, h2⟩; exact ⟨h2, by omega⟩
    rw [this, mul_prod_erase s (fun n => uniform (t n)) h0]
  · rw [if_neg h0, measure_univ, one_mul]
    congr 1
    rw [filter_eq_self]
    intro n hn
    rcases Nat.eq_zero_or_pos n with rfl | h
    · exact absurd hn h0
    · exact h

/-- The set of sequences whose flight is longer than `t`. -/
def longer (M a t : ℝ) : Set (ℕ → ℝ) := {us | LongerThan M a us t}

theorem measurable_roundLength (M : ℝ) (j : ℕ) : Measurable fun us => roundLength M us j := by
  unfold roundLength
  exact ((measurable_const.sub (measurable_pi_apply _)).log.neg).div_const _

theorem measurableSet_longer (M a t : ℝ) : MeasurableSet (longer M a t) := by
  have : longer M a t = ⋃ k, ({us | FirstAccepted a us k} ∩
      {us | t < ∑ j ∈ range (k + 1), roundLength M us j}) := by
    ext us; simp [longer, LongerThan]
  rw [this]
  refine MeasurableSet.iUnion fun k => MeasurableSet.inter ?_ ?_
  · have : {us : ℕ → ℝ | FirstAccepted a us k} =
        (⋂ j ∈ Finset.range k, {us | a ≤ us (2 * j + 1)}) ∩ {us | us (2 * k + 1) < a} := by
      ext us; simp [FirstAccepted]
    rw [this]
    refine MeasurableSet.inter ?_ ?_
    · exact Finset.measurableSet_biInter _ fun j _ =>
        measurableSet_le measurable_const (measurable_pi_apply _)
    · exact measurableSet_lt (measurable_pi_apply _) measurable_const
  · exact measurableSet_lt measurable_const
      (Finset.measurable_sum _ fun j _ => measurable_roundLength M j)

/-- Splitting off the first round. -/
theorem longer_cons {M a t u v : ℝ} {w : ℕ → ℝ} :
    consSeq (u, consSeq (v, w)) ∈ longer M a t ↔
      (v < a ∧ t < -Real.log (1 - u) / M) ∨
        (a ≤ v ∧ w ∈ longer M a (t - -Real.log (1 - u) / M)) := by
  set us := consSeq (u, consSeq (v, w)) with hus
  have h0 : us 0 = u := rfl
  have h1 : us 1 = v := rfl
  have hs : ∀ n, us (n + 2) = w n := fun _ => rfl
  have hl0 : roundLength M us 0 = -Real.log (1 - u) / M := by
    unfold roundLength; rw [Nat.mul_zero, h0]
  have hls : ∀ j, roundLength M us (j + 1) = roundLength M w j := by
    intro j; unfold roundLength; rw [show 2 * (j + 1) = 2 * j + 2 by ring, hs]
  have hsum : ∀ k, ∑ j ∈ range (k + 1 + 1), roundLength M us j =
      -Real.log (1 - u) / M + ∑ j ∈ range (k + 1), roundLength M w j := by
    intro k
    rw [Finset.sum_range_succ', hl0, add_comm, Finset.sum_congr rfl fun j _ => hls j]
  constructor
  · rintro ⟨k, ⟨ha, hb⟩, hk⟩
    cases k with
    | zero =>
      left
      refine ⟨hb, ?_⟩
      rw [Finset.sum_range_one, hl0] at hk
      exact hk
    | succ k =>
      right
      refine ⟨ha 0 (by omega), k, ⟨fun j hj => ?_, ?_⟩, ?_⟩
      · exact ha (j + 1) (by omega)
      · exact hb
      · rw [hsum] at hk; linarith
  · rintro (⟨ha, hb⟩ | ⟨ha, k, ⟨hb, hc⟩, hk⟩)
    · refine ⟨0, ⟨by simp, ha⟩, ?_⟩
      rw [Finset.sum_range_one, hl0]
      exact hb
    · refine ⟨k + 1, ⟨fun j hj => ?_, hc⟩, ?_⟩
      · cases j with
        | zero => exact ha
        | succ j => exact hb j (by omega)
      · rw [hsum]; linarith

/-- Probability that the flight is longer than `t`. -/
noncomputable def survival (M a t : ℝ) : ℝ := (uniforms (longer M a t)).toReal

theorem survival_nonneg (M a t : ℝ) : 0 ≤ survival M a t := ENNReal.toReal_nonneg

theorem survival_le_one (M a t : ℝ) : survival M a t ≤ 1 := by
  unfold survival
  have h : uniforms (longer M a t) ≤ 1 := prob_le_one
  exact ENNReal.toReal_mono ENNReal.one_ne_top h

theorem survival_antitone (M a : ℝ) : Antitone (survival M a) := by
  intro s t hst
  refine ENNReal.toReal_mono (measure_ne_top _ _) (measure_mono ?_)
  rintro us ⟨k, h1, h2⟩
  exact ⟨k, h1, hst.trans_lt h2⟩

theorem measurable_length (M : ℝ) : Measurable fun u : ℝ => -Real.log (1 - u) / M :=
  ((measurable_const.sub measurable_id).log.neg).div_const _

theorem uniform_Iio {a : ℝ} (h1 : a ≤ 1) : uniform (Set.Iio a) = ENNReal.ofReal a := by
  rw [uniform_apply measurableSet_Iio, prob]
  have : Set.Iio a ∩ Set.Ico 0 1 = Set.Ico 0 a := by
    ext v
    simp only [Set.mem_inter_iff, Set.mem_Iio, Set.mem_Ico]
    constructor
    · rintro ⟨h2, h3, _⟩; exact ⟨h3, h2⟩
    · rintro ⟨h2, h3⟩; exact ⟨h3, h2, h3.trans_le h1⟩
  rw [this, Real.volume_Ico, sub_zero]

theorem uniform_Ici {a : ℝ} (h0 : 0 ≤ a) : uniform (Set.Ici a) = ENNReal.ofReal (1 - a) := by
  rw [uniform_apply measurableSet_Ici, prob]
  have : Set.Ici a ∩ Set.Ico 0 1 = Set.Ico a 1 := by
    ext v
    simp only [Set.mem_inter_iff, Set.mem_Ici, Set.mem_Ico]
    constructor
    · rintro ⟨h2, _, h3⟩; exact ⟨h2, h3⟩
    · rintro ⟨h2, h3⟩; exact ⟨h2, h0.trans h2, h3⟩
  rw [this, Real.volume_Ico]

/-- The renewal equation, as an integral over the number that decides the first length. -/
theorem uniforms_longer {M a : ℝ} (h0 : 0 ≤ a) (h1 : a ≤ 1) (t : ℝ) :
    uniforms (longer M a t) = ∫⁻ u, ENNReal.ofReal
      ((if t < -Real.log (1 - u) / M then a else 0) +
        (1 - a) * survival M a (t - -Real.log (1 - u) / M)) ∂uniform := by
  have hm := measurableSet_longer M a t
  have hm1 := measurable_consSeq hm
  conv_lhs => rw [← uniforms_cons, Measure.map_apply measurable_consSeq hm]
  rw [Measure.prod_apply hm1]
  refine lintegral_congr fun u => ?_
  have hm2 : MeasurableSet (Prod.mk u ⁻¹' (consSeq ⁻¹' longer M a t)) :=
    measurable_prodMk_left hm1
  conv_lhs => rw [← uniforms_cons, Measure.map_apply measurable_consSeq hm2]
  have hset : consSeq ⁻¹' (Prod.mk u ⁻¹' (consSeq ⁻¹' longer M a t)) =
      Set.Iio a ×ˢ (if t < -Real.log (1 - u) / M then Set.univ else ∅) ∪
      Set.Ici a ×ˢ longer M a (t - -Real.log (1 - u) / M) := by
    ext ⟨v, w⟩
    simp only [Set.mem_preimage, Set.mem_union, Set.mem_prod, Set.mem_Iio, Set.mem_Ici]
    rw [longer_cons]
    split_ifs with h <;> simp [h]
  rw [hset, measure_union _ (measurableSet_Ici.prod (measurableSet_longer _ _ _)),
    Measure.prod_prod, Measure.prod_prod, uniform_Iio h1, uniform_Ici h0,
    ENNReal.ofReal_add, ENNReal.ofReal_mul (by linarith), survival,
    ENNReal.ofReal_toReal (measure_ne_top _ _)]
  · congr 1
    split_ifs <;> simp
  · split_ifs <;> simp [h0]
  · exact mul_nonneg (by linarith) (survival_nonneg _ _ _)
  · rw [Set.disjoint_left]
    rintro ⟨v, w⟩ h2 h3
    exact absurd (Set.mem_Iio.1 h2.1) (not_lt.2 (Set.mem_Ici.1 h3.1))

/-- The right-hand side of the renewal equation. -/
noncomputable def renewal (M a : ℝ) (f : ℝ → ℝ) (t u : ℝ) : ℝ :=
  (if t < -Real.log (1 - u) / M then a else 0) + (1 - a) * f (t - -Real.log (1 - u) / M)

theorem measurable_renewal {M a : ℝ} {f : ℝ → ℝ} (hf : Measurable f) (t : ℝ) :
    Measurable (renewal M a f t) := by
  unfold renewal
  refine Measurable.add ?_ (measurable_const.mul (hf.comp (measurable_const.sub
    (measurable_length M))))
  exact Measurable.ite (measurableSet_lt measurable_const (measurable_length M))
    measurable_const measurable_const

theorem renewal_bounds {M a : ℝ} (h0 : 0 ≤ a) (h1 : a ≤ 1) {f : ℝ → ℝ}
    (hf : ∀ t, 0 ≤ f t ∧ f t ≤ 1) (t u : ℝ) :
    0 ≤ renewal M a f t u ∧ renewal M a f t u ≤ 1 := by
  obtain ⟨h2, h3⟩ := hf (t - -Real.log (1 - u) / M)
  have h4 : 0 ≤ (1 - a) * f (t - -Real.log (1 - u) / M) := mul_nonneg (by linarith) h2
  have h5 : (1 - a) * f (t - -Real.log (1 - u) / M) ≤ 1 - a := by nlinarith
  unfold renewal
  split_ifs
  · constructor <;> linarith
  · constructor <;> linarith

theorem integrable_renewal {M a : ℝ} (h0 : 0 ≤ a) (h1 : a ≤ 1) {f : ℝ → ℝ}
    (hm : Measurable f) (hf : ∀ t, 0 ≤ f t ∧ f t ≤ 1) (t : ℝ) :
    Integrable (renewal M a f t) uniform := by
  refine Integrable.of_bound (C := 1) (measurable_renewal hm t).aestronglyMeasurable ?_
  refine Filter.Eventually.of_forall fun u => ?_
  obtain ⟨h2, h3⟩ := renewal_bounds (M := M) h0 h1 hf t u
  rw [Real.norm_eq_abs, abs_of_nonneg h2]
  exact h3

theorem survival_renewal {M a : ℝ} (h0 : 0 ≤ a) (h1 : a ≤ 1) (t : ℝ) :
    survival M a t = ∫ u, renewal M a (survival M a) t u ∂uniform := by
  have hb : ∀ t, 0 ≤ survival M a t ∧ survival M a t ≤ 1 :=
    fun t => ⟨survival_nonneg M a t, survival_le_one M a t⟩
  rw [integral_eq_lintegral_of_nonneg_ae
    (Filter.Eventually.of_forall fun u => (renewal_bounds h0 h1 hb t u).1)
    (measurable_renewal (survival_antitone M a).measurable t).aestronglyMeasurable]
  conv_lhs => unfold survival
  rw [uniforms_longer h0 h1]
  rfl

/-- Bounded solutions of the renewal equation are unique. -/
theorem renewal_unique {M a : ℝ} (h0 : 0 < a) (h1 : a ≤ 1) {f g : ℝ → ℝ}
    (hfm : Measurable f) (hgm : Measurable g) (hf : ∀ t, 0 ≤ f t ∧ f t ≤ 1)
    (hg : ∀ t, 0 ≤ g t ∧ g t ≤ 1) (hf' : ∀ t, f t = ∫ u, renewal M a f t u ∂uniform)
    (hg' : ∀ t, g t = ∫ u, renewal M a g t u ∂uniform) : f = g := by
  have key : ∀ n : ℕ, ∀ t, |f t - g t| ≤ (1 - a) ^ n := by
    intro n
    induction n with
    | zero =>
      intro t
      rw [pow_zero, abs_le]
      constructor <;> linarith [(hf t).1, (hf t).2, (hg t).1, (hg t).2]
    | succ n ih =>
      intro t
      rw [hf' t, hg' t, ← integral_sub (integrable_renewal h0.le h1 hfm hf t)
        (integrable_renewal h0.le h1 hgm hg t)]
      have := norm_integral_le_of_norm_le_const (μ := uniform) (C := (1 - a) ^ (n + 1))
        (f := fun u => renewal M a f t u - renewal M a g t u)
        (Filter.Eventually.of_forall fun u => by
          unfold renewal
          rw [add_sub_add_left_eq_sub, ← mul_sub, Real.norm_eq_abs, abs_mul,
            abs_of_nonneg (by linarith : 0 ≤ 1 - a), pow_succ, mul_comm]
          exact mul_le_mul_of_nonneg_right (ih _) (by linarith))
      simpa using this
  funext t
  have hlim := tendsto_pow_atTop_nhds_zero_of_lt_one (r := 1 - a) (by linarith) (by linarith)
  have : |f t - g t| ≤ 0 := ge_of_tendsto' hlim fun n => key n t
  have := abs_nonpos_iff.1 this
  linarith

/-- The exponential survival probability with rate `a M`. -/
noncomputable def expSurvival (M a t : ℝ) : ℝ := if t < 0 then 1 else Real.exp (-(a * M * t))

theorem expSurvival_antitone {M a : ℝ} (hM : 0 < M) (h0 : 0 < a) : Antitone (expSurvival M a) := by
  intro s t hst
  have haM : 0 < a * M := mul_pos h0 hM
  unfold expSurvival
  split_ifs with h1 h2 h2
  · exact le_rfl
  · linarith
  · rw [Real.exp_le_one_iff]
    have := mul_nonneg haM.le (not_lt.1 h1)
    linarith
  · rw [Real.exp_le_exp]
    have := mul_le_mul_of_nonneg_left hst haM.le
    linarith

theorem expSurvival_bounds {M a : ℝ} (hM : 0 < M) (h0 : 0 < a) (t : ℝ) :
    0 ≤ expSurvival M a t ∧ expSurvival M a t ≤ 1 := by
  have haM : 0 < a * M := mul_pos h0 hM
  unfold expSurvival
  split_ifs with h
  · exact ⟨zero_le_one, le_rfl⟩
  · refine ⟨(Real.exp_pos _).le, ?_⟩
    rw [Real.exp_le_one_iff]
    have := mul_nonneg haM.le (not_lt.1 h)
    linarith

theorem integral_uniform (f : ℝ → ℝ) : ∫ u, f u ∂uniform = ∫ u in (0 : ℝ)..1, f u := by
  rw [intervalIntegral.integral_of_le zero_le_one, integral_Ioc_eq_integral_Ioo,
    ← integral_Ico_eq_integral_Ioo]
  rfl

theorem length_nonneg {M u : ℝ} (hM : 0 < M) (h0 : 0 ≤ u) (h1 : u < 1) :
    0 ≤ -Real.log (1 - u) / M :=
  div_nonneg (neg_nonneg.2 (Real.log_nonpos (by linarith) (by linarith))) hM.le

theorem lt_length_iff {M u t : ℝ} (hM : 0 < M) (h1 : u < 1) :
    t < -Real.log (1 - u) / M ↔ 1 - Real.exp (-(M * t)) < u := by
  rw [lt_div_iff₀ hM]
  have : t * M < -Real.log (1 - u) ↔ Real.log (1 - u) < -(M * t) := by
    constructor <;> intro h <;> linarith
  rw [this, Real.log_lt_iff_lt_exp (by linarith)]
  constructor <;> intro h <;> linarith

theorem expSurvival_renewal {M a : ℝ} (hM : 0 < M) (h0 : 0 < a) (h1 : a ≤ 1) (t : ℝ) :
    expSurvival M a t = ∫ u, renewal M a (expSurvival M a) t u ∂uniform := by
  have hmeas := (expSurvival_antitone hM h0).measurable
  have hint := integrable_renewal (M := M) h0.le h1 hmeas (expSurvival_bounds hM h0) t
  by_cases ht : t < 0
  · have : ∫ u, renewal M a (expSurvival M a) t u ∂uniform = ∫ _u, (1 : ℝ) ∂uniform := by
      unfold uniform
      refine setIntegral_congr_fun measurableSet_Ico fun u hu => ?_
      have hl := length_nonneg hM hu.1 hu.2
      simp only [renewal, expSurvival]
      rw [if_pos (by linarith), if_pos (by linarith)]
      ring
    rw [this, expSurvival, if_pos ht]
    simp
  · push Not at ht
    set c := 1 - Real.exp (-(M * t)) with hc
    have hMt : 0 ≤ M * t := mul_nonneg hM.le ht
    have hc0 : 0 ≤ c := by
      have := Real.exp_le_one_iff.2 (by linarith : -(M * t) ≤ 0)
      linarith
    have hc1 : c < 1 := by
      have := Real.exp_pos (-(M * t))
      linarith
    rw [integral_uniform]
    have hii : IntervalIntegrable (renewal M a (expSurvival M a) t) volume 0 1 := by
      rw [intervalIntegrable_iff_integrableOn_Ico_of_le zero_le_one]
      exact hint
    have hi1 : IntervalIntegrable (renewal M a (expSurvival M a) t) volume 0 c :=
      hii.mono_set (by
        rw [Set.uIcc_of_le hc0, Set.uIcc_of_le zero_le_one]
        exact Set.Icc_subset_Icc le_rfl hc1.le)
    have hi2 : IntervalIntegrable (renewal M a (expSurvival M a) t) volume c 1 :=
      hii.mono_set (by
        rw [Set.uIcc_of_le hc1.le, Set.uIcc_of_le zero_le_one]
        exact Set.Icc_subset_Icc hc0 le_rfl)
    rw [← intervalIntegral.integral_add_adjacent_intervals hi1 hi2]
    have e1 : ∫ u in (0 : ℝ)..c, renewal M a (expSurvival M a) t u =
        Real.exp (-(a * M * t)) * (1 - Real.exp (-((1 - a) * (M * t)))) := by
      have hcong : ∫ u in (0 : ℝ)..c, renewal M a (expSurvival M a) t u =
          ∫ u in (0 : ℝ)..c, Real.exp (-(a * M * t)) *
            ((1 - a) * Real.exp ((1 - a) * Real.log (1 - u)) / (1 - u)) := by
        refine intervalIntegral.integral_congr fun u hu => ?_
        rw [Set.uIcc_of_le hc0] at hu
        have hu1 : u < 1 := hu.2.trans_lt hc1
        have hlt : ¬ t < -Real.log (1 - u) / M := by
          rw [lt_length_iff hM hu1]
          exact not_lt.2 hu.2
        simp only [renewal, expSurvival]
        rw [if_neg hlt, if_neg (by linarith), zero_add]
        have : Real.exp (-(a * M * (t - -Real.log (1 - u) / M))) =
            Real.exp (-(a * M * t)) * (Real.exp ((1 - a) * Real.log (1 - u)) / (1 - u)) := by
          rw [show Real.exp ((1 - a) * Real.log (1 - u)) / (1 - u) =
            Real.exp ((1 - a) * Real.log (1 - u)) / Real.exp (Real.log (1 - u)) by
              rw [Real.exp_log (by linarith)], ← Real.exp_sub, ← Real.exp_add]
          congr 1
          field_simp
          ring
        rw [this]
        ring
      rw [hcong, intervalIntegral.integral_const_mul]
      congr 1
      have hderiv : ∀ u ∈ Set.uIcc 0 c, HasDerivAt
          (fun u => -Real.exp ((1 - a) * Real.log (1 - u)))
          ((1 - a) * Real.exp ((1 - a) * Real.log (1 - u)) / (1 - u)) u := by
        intro u hu
        rw [Set.uIcc_of_le hc0] at hu
        have hu1 : 1 - u ≠ 0 := by linarith [hu.2.trans_lt hc1]
        have h2 : HasDerivAt (fun u : ℝ => 1 - u) (-1) u := by
          simpa using (hasDerivAt_id u).const_sub 1
        have h3 := (((h2.log hu1).const_mul (1 - a)).exp).neg
        have h4 : -(Real.exp ((1 - a) * Real.log (1 - u)) * ((1 - a) * (-1 / (1 - u)))) =
            (1 - a) * Real.exp ((1 - a) * Real.log (1 - u)) / (1 - u) := by ring
        rw [h4] at h3
        exact h3
      rw [intervalIntegral.integral_eq_sub_of_hasDerivAt hderiv]
      · simp only [sub_zero, Real.log_one, mul_zero, Real.exp_zero]
        rw [hc, sub_sub_cancel, Real.log_exp]
        ring_nf
      · refine ContinuousOn.intervalIntegrable fun u hu => ContinuousAt.continuousWithinAt ?_
        rw [Set.uIcc_of_le hc0] at hu
        have hu1 : 1 - u ≠ 0 := by linarith [hu.2.trans_lt hc1]
        have h2 : ContinuousAt (fun u : ℝ => 1 - u) u := by fun_prop
        exact ((continuousAt_const.mul (Real.continuous_exp.continuousAt.comp
          (continuousAt_const.mul (h2.log hu1)))).div h2 hu1)
    have e2 : ∫ u in c..1, renewal M a (expSurvival M a) t u = 1 - c := by
      have : ∫ u in c..1, renewal M a (expSurvival M a) t u = ∫ _u in c..1, (1 : ℝ) := by
        rw [intervalIntegral.integral_of_le hc1.le, intervalIntegral.integral_of_le hc1.le,
          integral_Ioc_eq_integral_Ioo, integral_Ioc_eq_integral_Ioo]
        refine setIntegral_congr_fun measurableSet_Ioo fun u hu => ?_
        have hlt : t < -Real.log (1 - u) / M := by
          rw [lt_length_iff hM hu.2]
          exact hu.1
        simp only [renewal, expSurvival]
        rw [if_pos hlt, if_pos (by linarith)]
        ring
      rw [this]
      simp
    rw [e1, e2, expSurvival, if_neg (by linarith), hc, mul_sub, ← Real.exp_add]
    rw [show -(a * M * t) + -((1 - a) * (M * t)) = -(M * t) by ring]
    ring

/-- The length of the whole flight is exponential with the reduced rate. -/
theorem uniforms_longer_eq {M a : ℝ} (hM : 0 < M) (h0 : 0 < a) (h1 : a ≤ 1) {t : ℝ}
    (ht : 0 ≤ t) : uniforms (longer M a t) = ENNReal.ofReal (Real.exp (-(a * M * t))) := by
  have h := renewal_unique h0 h1 (survival_antitone M a).measurable
    (expSurvival_antitone hM h0).measurable
    (fun t => ⟨survival_nonneg M a t, survival_le_one M a t⟩) (expSurvival_bounds hM h0)
    (survival_renewal h0.le h1) (expSurvival_renewal hM h0 h1)
  have h2 := congrFun h t
  rw [expSurvival, if_neg (by linarith)] at h2
  rw [← h2, survival, ENNReal.ofReal_toReal (measure_ne_top _ _)]

end Minimc.Spec
