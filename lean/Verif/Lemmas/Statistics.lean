import Verif.Spec.Experiment
import Verif.Props.Score
import Mathlib.Probability.CentralLimitTheorem
import Mathlib.Probability.StrongLaw
import Mathlib.Probability.Independence.InfinitePi
import Mathlib.MeasureTheory.Measure.Portmanteau

/-! # Samples of independent scores -/

namespace Minimc

open Spec Props MeasureTheory ProbabilityTheory Filter
open scoped ENNReal Topology

variable {Ω : Type*} [MeasurableSpace Ω] {μ : Measure Ω} [IsProbabilityMeasure μ] {X : Ω → ℝ}

theorem sum_sample (s : ℕ → ℝ) (n : ℕ) : (sample s n).sum = ∑ e ∈ Finset.range n, s e := by
  rw [sample, Finset.sum_range, ← List.sum_ofFn, List.ofFn_eq_map, ← List.map_coe_finRange_eq_range, List.map_map]
  rfl

theorem length_sample (s : ℕ → ℝ) (n : ℕ) : (sample s n).length = n := by simp [sample]

theorem mean_sample (s : ℕ → ℝ) (n : ℕ) : mean (sample s n) = (∑ e ∈ Finset.range n, s e) / n := by
  rw [mean, sum_sample, length_sample]

/-- The estimated standard deviation of one score. -/
theorem spread_sample (s : ℕ → ℝ) {n : ℕ} (hn : 0 < n) :
    Real.sqrt n * standardError (sample s n) =
      Real.sqrt ((∑ e ∈ Finset.range n, s e ^ 2) / n - ((∑ e ∈ Finset.range n, s e) / n) ^ 2) := by
  have hne : sample s n ≠ [] := by
    rw [← List.length_pos_iff, length_sample]
    exact hn
  have hn' : (0 : ℝ) < n := by exact_mod_cast hn
  have hsq : (sample s n).map (fun x => x ^ 2) = sample (fun e => s e ^ 2) n := by
    simp [sample, Function.comp_def]
  rw [standardError_eq hne, sum_sq_dev_mean hne, hsq, sum_sample, sum_sample, length_sample]
  have : ((∑ e ∈ Finset.range n, s e ^ 2) / n - ((∑ e ∈ Finset.range n, s e) / n) ^ 2) =
      ((∑ e ∈ Finset.range n, s e ^ 2) - (∑ e ∈ Finset.range n, s e) ^ 2 / n) / n := by
    field_simp
  rw [this, Real.sqrt_div' _ hn'.le]
  have hs : Real.sqrt n * Real.sqrt n = n := Real.mul_self_sqrt hn'.le
  have hs0 : Real.sqrt n ≠ 0 := (Real.sqrt_pos.2 hn').ne'
  rw [← sq, eq_div_iff hs0, mul_comm, ← mul_assoc, ← mul_div_assoc, hs, mul_div_cancel_left₀ _ hn'.ne']

theorem histories_eval (μ : Measure Ω) [IsProbabilityMeasure μ] (e : ℕ) :
    MeasurePreserving (fun histories : ℕ → Ω => histories e) (Measure.infinitePi fun _ : ℕ => μ) μ :=
  measurePreserving_eval_infinitePi (fun _ : ℕ => μ) e

theorem histories_ident (hX : Measurable X) (i : ℕ) :
    IdentDistrib (fun histories : ℕ → Ω => X (histories i)) (fun histories => X (histories 0))
      (Measure.infinitePi fun _ : ℕ => μ) (Measure.infinitePi fun _ : ℕ => μ) := by
  refine ⟨(hX.comp (measurable_pi_apply i)).aemeasurable, (hX.comp (measurable_pi_apply 0)).aemeasurable, ?_⟩
  rw [show (fun histories : ℕ → Ω => X (histories i)) = X ∘ fun hs : ℕ → Ω => hs i from rfl,
    show (fun histories : ℕ → Ω => X (histories 0)) = X ∘ fun hs : ℕ → Ω => hs 0 from rfl,
    ← Measure.map_map hX (histories_eval μ i).measurable,
    ← Measure.map_map hX (histories_eval μ 0).measurable, (histories_eval μ i).map_eq,
    (histories_eval μ 0).map_eq]

theorem histories_indep (hX : Measurable X) :
    iIndepFun (fun (e : ℕ) (histories : ℕ → Ω) => X (histories e)) (Measure.infinitePi fun _ : ℕ => μ) :=
  iIndepFun_infinitePi (P := fun _ : ℕ => μ) (X := fun _ => X) fun _ => hX

theorem histories_integral (hX : Measurable X) :
    ∫ histories : ℕ → Ω, X (histories 0) ∂(Measure.infinitePi fun _ : ℕ => μ) = ∫ ω, X ω ∂μ := by
  rw [← (histories_eval μ 0).map_eq, integral_map (histories_eval μ 0).measurable.aemeasurable]
  rw [(histories_eval μ 0).map_eq]
  exact hX.aestronglyMeasurable

/-- Averages tend to the mean. -/
theorem sample_mean (hX : Measurable X) (hi : Integrable X μ) :
    ∀ᵐ histories ∂(Measure.infinitePi fun _ : ℕ => μ),
      Tendsto (fun n : ℕ => (∑ e ∈ Finset.range n, X (histories e)) / n) atTop (𝓝 (∫ ω, X ω ∂μ)) := by
  rw [← histories_integral (μ := μ) hX]
  exact strong_law_ae_real (μ := Measure.infinitePi fun _ : ℕ => μ)
    (fun e histories => X (histories e)) ((histories_eval μ 0).integrable_comp_of_integrable hi)
    (fun i j hij => (histories_indep hX).indepFun hij) (histories_ident hX)

/-- The estimated standard deviation tends to the standard deviation. -/
theorem sample_spread (hX : Measurable X) (h2 : MemLp X 2 μ) :
    ∀ᵐ histories ∂(Measure.infinitePi fun _ : ℕ => μ),
      Tendsto (fun n : ℕ => Real.sqrt n * standardError (sample (fun e => X (histories e)) n)) atTop
        (𝓝 (Real.sqrt (Var[X; μ]))) := by
  have hi : Integrable X μ := h2.integrable (by norm_num)
  have hi2 : Integrable (fun ω => X ω ^ 2) μ := h2.integrable_sq
  filter_upwards [sample_mean hX hi, sample_mean (hX.pow_const 2) hi2] with histories h1 h3
  have hv : Var[X; μ] = ∫ ω, X ω ^ 2 ∂μ - (∫ ω, X ω ∂μ) ^ 2 := variance_eq_sub h2
  rw [hv]
  refine Tendsto.congr' ?_ ((h3.sub (h1.pow 2)).sqrt)
  filter_upwards [eventually_gt_atTop 0] with n hn
  rw [spread_sample _ hn]

theorem measurable_spread (hX : Measurable X) (n : ℕ) :
    Measurable fun histories : ℕ → Ω =>
      Real.sqrt n * standardError (sample (fun e => X (histories e)) n) := by
  rcases Nat.eq_zero_or_pos n with rfl | hn
  · simp
  · simp only [spread_sample _ hn]
    fun_prop

/-- The share of the normal distribution within `k` standard deviations. -/
theorem gaussian_within (v : ℝ) (hv : 0 < v) (k : ℝ) (hk : 0 ≤ k) :
    gaussianReal 0 v.toNNReal {y | |y| ≤ k * Real.sqrt v} =
      ENNReal.ofReal (∫ x in -k..k, Real.exp (-(x ^ 2 / 2)) / Real.sqrt (2 * Real.pi)) := by
  have hs : 0 < Real.sqrt v := Real.sqrt_pos.mpr hv
  have hmap : gaussianReal 0 v.toNNReal = (gaussianReal 0 1).map (Real.sqrt v * ·) := by
    rw [gaussianReal_map_const_mul, mul_zero, mul_one]
    congr 1
    ext
    simp [Real.sq_sqrt hv.le, hv.le]
  have hset : (Real.sqrt v * ·) ⁻¹' {y : ℝ | |y| ≤ k * Real.sqrt v} = Set.Icc (-k) k := by
    ext x
    simp only [Set.mem_preimage, Set.mem_ofPred_eq, Set.mem_Icc, abs_mul, abs_of_pos hs, ← abs_le]
    rw [mul_comm k, mul_le_mul_iff_right₀ hs]
  rw [hmap, Measure.map_apply (measurable_const_mul _) (measurableSet_le (by fun_prop) (by fun_prop)),
    hset, gaussianReal_apply_eq_integral 0 one_ne_zero, intervalIntegral.integral_of_le (by linarith),
    integral_Icc_eq_integral_Ioc]
  congr 2
  ext x
  rw [gaussianPDFReal_def]
  simp
  ring_nf

/-- The mean is within `k` estimated standard errors of the average with the probability that the normal
distribution gives. -/
theorem sample_confidence (hX : Measurable X) (h2 : MemLp X 2 μ) (hv : Var[X; μ] ≠ 0) (k : ℝ)
    (hk : 0 ≤ k) :
    Tendsto (fun n : ℕ => (Measure.infinitePi fun _ : ℕ => μ) {histories |
      |mean (sample (fun e => X (histories e)) n) - ∫ ω, X ω ∂μ| ≤
        k * standardError (sample (fun e => X (histories e)) n)}) atTop
      (𝓝 (ENNReal.ofReal (∫ x in -k..k, Real.exp (-(x ^ 2 / 2)) / Real.sqrt (2 * Real.pi)))) := by
  set M := Measure.infinitePi fun _ : ℕ => μ with hM
  have hpos : 0 < Var[X; μ] := lt_of_le_of_ne (variance_nonneg _ _) (Ne.symm hv)
  have hvar : Var[fun histories : ℕ → Ω => X (histories 0); M] = Var[X; μ] :=
    (IdentDistrib.mk (hX.comp (measurable_pi_apply 0)).aemeasurable hX.aemeasurable (by
      rw [← Measure.map_map hX (histories_eval μ 0).measurable, (histories_eval μ 0).map_eq])).variance_eq
  have hclt := tendstoInDistribution_inv_sqrt_mul_sum_sub (P := M)
    (P' := gaussianReal 0 (Var[X; μ]).toNNReal) (Y := id)
    (X := fun e (histories : ℕ → Ω) => X (histories e)) (by rw [hvar]; exact HasLaw.id)
    (h2.comp_measurePreserving (histories_eval μ 0)) (histories_indep hX) (histories_ident hX)
  have hsp : TendstoInMeasure M (fun (n : ℕ) histories =>
      Real.sqrt n * standardError (sample (fun e => X (histories e)) n)) atTop
        fun _ => Real.sqrt (Var[X; μ]) :=
    tendstoInMeasure_of_tendsto_ae (fun n => (measurable_spread hX n).aestronglyMeasurable)
      (sample_spread hX h2)
  have hz := hclt.continuous_comp_prodMk_of_tendstoInMeasure_const
    (g := fun p : ℝ × ℝ => |p.1| - k * p.2) (by fun_prop) hsp
    (fun n => (measurable_spread hX n).aemeasurable)
  have : NullSingletonClass (gaussianReal 0 (Var[X; μ]).toNNReal) :=
    nullSingletonClass_gaussianReal (by simpa using hpos)
  have hlim := ProbabilityMeasure.tendsto_measure_of_null_frontier_of_tendsto' hz.tendsto
    (E := Set.Iic 0) (by
      rw [frontier_Iic]
      simp only [ProbabilityMeasure.coe_mk]
      rw [Measure.map_apply_of_aemeasurable (by fun_prop) (measurableSet_singleton 0)]
      refine measure_mono_null (t := {k * Real.sqrt Var[X; μ], -(k * Real.sqrt Var[X; μ])}) ?_
        ((Set.toFinite _).measure_zero _)
      intro y hy
      simp only [Set.mem_preimage, Set.mem_singleton_iff, id] at hy
      rcases abs_choice y with h | h
      · left; linarith
      · right
        simp only [Set.mem_singleton_iff]
        linarith)
  simp only [ProbabilityMeasure.coe_mk] at hlim
  rw [Measure.map_apply_of_aemeasurable (by fun_prop) measurableSet_Iic] at hlim
  rw [← gaussian_within _ hpos k hk]
  have hlast : (fun y : ℝ => |id y| - k * Real.sqrt Var[X; μ]) ⁻¹' Set.Iic 0 =
      {y | |y| ≤ k * Real.sqrt Var[X; μ]} := by
    ext y
    simp
  rw [hlast] at hlim
  refine Tendsto.congr' ?_ hlim
  filter_upwards [eventually_gt_atTop 0] with n hn
  rw [Measure.map_apply_of_aemeasurable (hz.forall_aemeasurable n) measurableSet_Iic]
  congr 1
  ext histories
  have hn' : (0 : ℝ) < n := Nat.cast_pos.mpr hn
  have hs : 0 < Real.sqrt n := Real.sqrt_pos.mpr hn'
  simp only [Set.mem_preimage, Set.mem_Iic, Set.mem_ofPred_eq, mean_sample]
  rw [histories_integral (μ := μ) hX]
  generalize (∑ e ∈ Finset.range n, X (histories e)) = S
  generalize (∫ ω, X ω ∂μ) = E
  generalize standardError _ = σ
  have hroot : Real.sqrt n * Real.sqrt n = n := Real.mul_self_sqrt hn'.le
  have h : (Real.sqrt n)⁻¹ * (S - n * E) = Real.sqrt n * (S / n - E) := by
    rw [inv_mul_eq_iff_eq_mul₀ hs.ne', ← mul_assoc, hroot]
    field_simp
  rw [h, abs_mul, abs_of_pos hs, mul_left_comm, ← mul_sub, ← not_lt, ← not_lt, not_iff_not, mul_pos_iff_of_pos_left hs,
    sub_pos]

end Minimc
