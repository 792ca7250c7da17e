import Verif.Spec.Target
import Verif.Lemmas.TargetSpeed
import Verif.Lemmas.Flight
import Verif.Lemmas.Maxwell

/-! # Distribution of the chosen target -/

namespace Minimc.Spec

open MeasureTheory Set
open scoped ENNReal

/-- The first number of a sequence integrated apart from the others. -/
theorem lintegral_uniforms {f : (ℕ → ℝ) → ℝ≥0∞} (hf : Measurable f) :
    ∫⁻ us, f us ∂uniforms = ∫⁻ u, ∫⁻ us, f (consSeq (u, us)) ∂uniforms ∂uniform := by
  conv_lhs => rw [← uniforms_cons]
  rw [lintegral_map hf measurable_consSeq]
  exact lintegral_prod _ (hf.comp measurable_consSeq).aemeasurable

theorem measurable_consSeq_mk (u : ℝ) : Measurable fun us : ℕ → ℝ => consSeq (u, us) :=
  measurable_consSeq.comp (by fun_prop)

/-- One number compared with a probability. -/
theorem lintegral_below {a : ℝ} (h0 : 0 ≤ a) (h1 : a ≤ 1) (P Q : ℝ≥0∞) :
    ∫⁻ u, (if u < a then P else Q) ∂uniform = ENNReal.ofReal a * P + ENNReal.ofReal (1 - a) * Q := by
  have hm : MeasurableSet (Iio a) := measurableSet_Iio
  have e : ∀ u : ℝ, (if u < a then P else Q) =
      (Iio a).indicator (fun _ => P) u + (Iio a)ᶜ.indicator (fun _ => Q) u := by
    intro u
    by_cases h : u < a
    · rw [if_pos h, indicator_of_mem (by exact h), indicator_of_notMem (by simpa using h), add_zero]
    · rw [if_neg h, indicator_of_notMem (by exact h), indicator_of_mem (by exact h), zero_add]
  simp_rw [e]
  rw [lintegral_add_left (measurable_const.indicator hm), lintegral_indicator hm,
    lintegral_indicator hm.compl, setLIntegral_const, setLIntegral_const]
  have e1 : uniform (Iio a) = ENNReal.ofReal a := by
    unfold uniform
    rw [Measure.restrict_apply hm]
    have : Iio a ∩ Ico 0 1 = Ico 0 a := by
      ext x; simp only [mem_inter_iff, mem_Iio, mem_Ico]
      constructor
      · rintro ⟨h, h', -⟩; exact ⟨h', h⟩
      · rintro ⟨h, h'⟩; exact ⟨h', h, by linarith⟩
    rw [this, Real.volume_Ico, sub_zero]
  rw [prob_compl_eq_one_sub hm, e1, ENNReal.ofReal_sub _ h0, ENNReal.ofReal_one, mul_comm P,
    mul_comm Q]

/-- The cosine made from a uniform number. -/
theorem lintegral_cosine (g : ℝ → ℝ≥0∞) :
    ∫⁻ u, g (2 * u - 1) ∂uniform = ENNReal.ofReal (1 / 2) * ∫⁻ μ in Ioo (-1 : ℝ) 1, g μ := by
  have h := lintegral_image_eq_lintegral_abs_deriv_mul (s := Ioo (0 : ℝ) 1)
    (f := fun u => 2 * u - 1) (f' := fun _ => 2) measurableSet_Ioo
    (fun x _ => by simpa using (((hasDerivAt_id x).const_mul 2).sub_const 1).hasDerivWithinAt)
    (fun a _ b _ hab => by simpa using hab) g
  have hi : (fun u : ℝ => 2 * u - 1) '' Ioo (0 : ℝ) 1 = Ioo (-1) 1 := by
    ext v
    simp only [mem_image, mem_Ioo]
    constructor
    · rintro ⟨x, ⟨h1, h2⟩, rfl⟩
      constructor <;> linarith
    · rintro ⟨h1, h2⟩
      exact ⟨(v + 1) / 2, ⟨by linarith, by linarith⟩, by ring⟩
  rw [hi, abs_of_pos two_pos, lintegral_const_mul' _ _ ENNReal.ofReal_ne_top] at h
  unfold uniform
  rw [← restrict_Ioo_eq_restrict_Ico, h, ← mul_assoc, ← ENNReal.ofReal_mul (by norm_num)]
  norm_num

theorem relativeSpeed_nonneg (v s μ : ℝ) : 0 ≤ relativeSpeed v s μ := Real.sqrt_nonneg _

theorem relativeSpeed_le {v s μ : ℝ} (hv : 0 < v) (hs : 0 ≤ s) (hμ : -1 ≤ μ) :
    relativeSpeed v s μ / (s + v) ≤ 1 := by
  rw [div_le_one (by linarith)]
  unfold relativeSpeed
  refine Real.sqrt_le_iff.2 ⟨by linarith, ?_⟩
  nlinarith [mul_nonneg hv.le hs]

theorem measurable_relativeSpeed {α : Type*} [MeasurableSpace α] {f g h : α → ℝ}
    (hf : Measurable f) (hg : Measurable g) (hh : Measurable h) :
    Measurable fun a => relativeSpeed (f a) (g a) (h a) := by
  unfold relativeSpeed
  fun_prop

/-- Weight of the acceptance of a proposal with speed `x` and cosine `μ`. -/
noncomputable def accepting (y x μ : ℝ) : ℝ :=
  2 / (Real.sqrt Real.pi * y + 2) * x ^ 2 * Real.exp (-x ^ 2) * relativeSpeed y x μ

/-- Weight of its rejection. -/
noncomputable def rejecting (y x μ : ℝ) : ℝ :=
  2 / (Real.sqrt Real.pi * y + 2) * x ^ 2 * Real.exp (-x ^ 2) * (x + y - relativeSpeed y x μ)

/-- One pass of the loop, ending in `F` of the proposal or in `R` of the remaining numbers. -/
noncomputable def onePass (y : ℝ) (F : ℝ × ℝ → ℝ≥0∞) (R : (ℕ → ℝ) → ℝ≥0∞) (us : ℕ → ℝ) : ℝ≥0∞ :=
  if us (proposal y us).2.2 <
      relativeSpeed y (proposal y us).1 (proposal y us).2.1 / ((proposal y us).1 + y)
  then F ((proposal y us).1, (proposal y us).2.1)
  else R fun i => us (i + ((proposal y us).2.2 + 1))

theorem onePass_eq (y : ℝ) (F : ℝ × ℝ → ℝ≥0∞) (R : (ℕ → ℝ) → ℝ≥0∞) (us : ℕ → ℝ) :
    onePass y F R us =
      if us 2 < 2 / (Real.sqrt Real.pi * y + 2) then
        if us 4 < relativeSpeed y (Real.sqrt (-Real.log (us 0 * us 1))) (2 * us 3 - 1) /
            (Real.sqrt (-Real.log (us 0 * us 1)) + y)
        then F (Real.sqrt (-Real.log (us 0 * us 1)), 2 * us 3 - 1)
        else R fun i => us (i + 5)
      else
        if us 5 < relativeSpeed y (Real.sqrt (-Real.log (us 0) - Real.log (us 1) *
            Real.cos (Real.pi * us 3 / 2) * Real.cos (Real.pi * us 3 / 2))) (2 * us 4 - 1) /
            (Real.sqrt (-Real.log (us 0) - Real.log (us 1) *
            Real.cos (Real.pi * us 3 / 2) * Real.cos (Real.pi * us 3 / 2)) + y)
        then F (Real.sqrt (-Real.log (us 0) - Real.log (us 1) *
            Real.cos (Real.pi * us 3 / 2) * Real.cos (Real.pi * us 3 / 2)), 2 * us 4 - 1)
        else R fun i => us (i + 6) := by
  unfold onePass proposal
  by_cases h : us 2 < 2 / (Real.sqrt Real.pi * y + 2)
  · simp only [if_pos h]
  · simp only [if_neg h]

theorem measurable_onePass (y : ℝ) {F : ℝ × ℝ → ℝ≥0∞} (hF : Measurable F) {R : (ℕ → ℝ) → ℝ≥0∞}
    (hR : Measurable R) : Measurable (onePass y F R) := by
  have e : onePass y F R = fun us => _ := funext (onePass_eq y F R)
  rw [e]
  have h5 : Measurable fun us : ℕ → ℝ => R fun i => us (i + 5) :=
    hR.comp (measurable_pi_iff.2 fun i => measurable_pi_apply _)
  have h6 : Measurable fun us : ℕ → ℝ => R fun i => us (i + 6) :=
    hR.comp (measurable_pi_iff.2 fun i => measurable_pi_apply _)
  refine Measurable.ite (measurableSet_lt (by fun_prop) (by fun_prop)) ?_ ?_
  · refine Measurable.ite (measurableSet_lt (by fun_prop) ?_) (by fun_prop) h5
    exact (measurable_relativeSpeed (by fun_prop) (by fun_prop) (by fun_prop)).div (by fun_prop)
  · refine Measurable.ite (measurableSet_lt (by fun_prop) ?_) (by fun_prop) h6
    exact (measurable_relativeSpeed (by fun_prop) (by fun_prop) (by fun_prop)).div (by fun_prop)

/-- The end of a pass: the cosine and the comparison with the acceptance probability. -/
noncomputable def passEnd (y : ℝ) (F : ℝ × ℝ → ℝ≥0∞) (I : ℝ≥0∞) (x : ℝ) : ℝ≥0∞ :=
  ∫⁻ d, (ENNReal.ofReal (relativeSpeed y x (2 * d - 1) / (x + y)) * F (x, 2 * d - 1) +
    ENNReal.ofReal (1 - relativeSpeed y x (2 * d - 1) / (x + y)) * I) ∂uniform

theorem measurable_passEnd (y : ℝ) {F : ℝ × ℝ → ℝ≥0∞} (hF : Measurable F) (I : ℝ≥0∞) :
    Measurable (passEnd y F I) := by
  unfold passEnd
  have h1 : Measurable fun p : ℝ × ℝ => relativeSpeed y p.1 (2 * p.2 - 1) :=
    measurable_relativeSpeed (by fun_prop) (by fun_prop) (by fun_prop)
  exact Measurable.lintegral_prod_right' (f := fun p : ℝ × ℝ =>
    ENNReal.ofReal (relativeSpeed y p.1 (2 * p.2 - 1) / (p.1 + y)) * F (p.1, 2 * p.2 - 1) +
    ENNReal.ofReal (1 - relativeSpeed y p.1 (2 * p.2 - 1) / (p.1 + y)) * I) (by fun_prop)

/-- Both numbers at the end of a pass. -/
theorem lintegral_passEnd {y x : ℝ} (hy : 0 < y) (hx : 0 ≤ x) (F : ℝ × ℝ → ℝ≥0∞) (I : ℝ≥0∞) :
    ∫⁻ d, ∫⁻ e, (if e < relativeSpeed y x (2 * d - 1) / (x + y) then F (x, 2 * d - 1) else I)
      ∂uniform ∂uniform = passEnd y F I x := by
  unfold passEnd
  refine lintegral_congr_ae ?_
  filter_upwards [ae_uniform] with d hd
  exact lintegral_below (div_nonneg (relativeSpeed_nonneg _ _ _) (by linarith))
    (relativeSpeed_le hy hx (by linarith [hd.1])) _ _

/-- One pass in terms of the speed that is proposed. -/
theorem lintegral_onePass {y : ℝ} (hy : 0 < y) {F : ℝ × ℝ → ℝ≥0∞} (hF : Measurable F)
    {R : (ℕ → ℝ) → ℝ≥0∞} (hR : Measurable R) :
    ∫⁻ us, onePass y F R us ∂uniforms = ∫⁻ x in Ioi (0 : ℝ),
      ENNReal.ofReal (4 / (Real.sqrt Real.pi * y + 2) * x ^ 2 * Real.exp (-x ^ 2) * (x + y)) *
        passEnd y F (∫⁻ us, R us ∂uniforms) x := by
  set c := 2 / (Real.sqrt Real.pi * y + 2) with hc
  have hsp : 0 < Real.sqrt Real.pi := Real.sqrt_pos.2 Real.pi_pos
  have hden : 0 < Real.sqrt Real.pi * y + 2 := by positivity
  have hc0 : 0 ≤ c := by positivity
  have hc1 : c ≤ 1 := by
    rw [hc, div_le_one hden]
    nlinarith [mul_pos hsp hy]
  set K := passEnd y F (∫⁻ us, R us ∂uniforms) with hK
  have hKm : Measurable K := measurable_passEnd y hF _
  have hm0 := measurable_onePass y hF hR
  -- the first branch
  have hA : ∀ a b : ℝ, ∫⁻ d, ∫⁻ e, ∫⁻ us,
      (if e < relativeSpeed y (Real.sqrt (-Real.log (a * b))) (2 * d - 1) /
          (Real.sqrt (-Real.log (a * b)) + y)
        then F (Real.sqrt (-Real.log (a * b)), 2 * d - 1) else R us)
      ∂uniforms ∂uniform ∂uniform = K (Real.sqrt (-Real.log (a * b))) := by
    intro a b
    rw [hK, ← lintegral_passEnd hy (Real.sqrt_nonneg _)]
    refine lintegral_congr fun d => lintegral_congr fun e => ?_
    split_ifs with h
    · rw [lintegral_const, measure_univ, mul_one]
    · rfl
  -- the second branch
  have hB : ∀ a b d : ℝ, ∫⁻ e, ∫⁻ us,
      (if us 0 < relativeSpeed y (Real.sqrt (-Real.log a - Real.log b *
            Real.cos (Real.pi * d / 2) * Real.cos (Real.pi * d / 2))) (2 * e - 1) /
            (Real.sqrt (-Real.log a - Real.log b *
            Real.cos (Real.pi * d / 2) * Real.cos (Real.pi * d / 2)) + y)
        then F (Real.sqrt (-Real.log a - Real.log b *
            Real.cos (Real.pi * d / 2) * Real.cos (Real.pi * d / 2)), 2 * e - 1)
        else R fun i => us (i + 1))
      ∂uniforms ∂uniform = K (Real.sqrt (-Real.log a - Real.log b *
            Real.cos (Real.pi * d / 2) * Real.cos (Real.pi * d / 2))) := by
    intro a b d
    rw [hK, ← lintegral_passEnd hy (Real.sqrt_nonneg _)]
    refine lintegral_congr fun e => ?_
    rw [lintegral_uniforms]
    · refine lintegral_congr fun f => ?_
      split_ifs with h
      · refine (lintegral_congr fun us => if_pos (by exact h)).trans ?_
        rw [lintegral_const, measure_univ, mul_one]
      · exact lintegral_congr fun us => if_neg (by exact h)
    · refine Measurable.ite (measurableSet_lt (by fun_prop) (by fun_prop)) (by fun_prop) ?_
      exact hR.comp (measurable_pi_iff.2 fun i => measurable_pi_apply _)
  have h1 : ∫⁻ us, onePass y F R us ∂uniforms = ∫⁻ a, ∫⁻ b, ∫⁻ u,
      (if u < c then K (Real.sqrt (-Real.log (a * b)))
        else ∫⁻ d, K (Real.sqrt (-Real.log a - Real.log b *
            Real.cos (Real.pi * d / 2) * Real.cos (Real.pi * d / 2))) ∂uniform)
      ∂uniform ∂uniform ∂uniform := by
    rw [lintegral_uniforms hm0]
    refine lintegral_congr fun a => ?_
    have hm1 := hm0.comp (measurable_consSeq_mk a)
    refine (lintegral_uniforms hm1).trans (lintegral_congr fun b => ?_)
    have hm2 := hm1.comp (measurable_consSeq_mk b)
    refine (lintegral_uniforms hm2).trans (lintegral_congr fun u => ?_)
    have hm3 := hm2.comp (measurable_consSeq_mk u)
    refine (lintegral_uniforms hm3).trans ?_
    have hm4 := fun d => hm3.comp (measurable_consSeq_mk d)
    refine (lintegral_congr fun d => lintegral_uniforms (hm4 d)).trans ?_
    split_ifs with h
    · refine Eq.trans ?_ (hA a b)
      exact lintegral_congr fun d => lintegral_congr fun e => lintegral_congr fun us =>
        (onePass_eq y F R _).trans (if_pos (by exact h))
    · refine lintegral_congr fun d => Eq.trans ?_ (hB a b d)
      exact lintegral_congr fun e => lintegral_congr fun us =>
        (onePass_eq y F R _).trans (if_neg (by exact h))
  rw [h1]
  simp_rw [lintegral_below hc0 hc1]
  have hgB : Measurable fun p : ℝ × ℝ × ℝ => K (Real.sqrt (-Real.log p.1 - Real.log p.2.1 *
            Real.cos (Real.pi * p.2.2 / 2) * Real.cos (Real.pi * p.2.2 / 2))) := by fun_prop
  have hgA : Measurable fun p : ℝ × ℝ => K (Real.sqrt (-Real.log (p.1 * p.2))) := by fun_prop
  have h2 : ∀ a : ℝ, ∫⁻ b, (ENNReal.ofReal c * K (Real.sqrt (-Real.log (a * b))) +
      ENNReal.ofReal (1 - c) * ∫⁻ d, K (Real.sqrt (-Real.log a - Real.log b *
            Real.cos (Real.pi * d / 2) * Real.cos (Real.pi * d / 2))) ∂uniform) ∂uniform =
      ENNReal.ofReal c * (∫⁻ b, K (Real.sqrt (-Real.log (a * b))) ∂uniform) +
      ENNReal.ofReal (1 - c) * ∫⁻ b, ∫⁻ d, K (Real.sqrt (-Real.log a - Real.log b *
            Real.cos (Real.pi * d / 2) * Real.cos (Real.pi * d / 2))) ∂uniform ∂uniform := by
    intro a
    rw [lintegral_add_left (by fun_prop), lintegral_const_mul' _ _ ENNReal.ofReal_ne_top,
      lintegral_const_mul' _ _ ENNReal.ofReal_ne_top]
  simp_rw [h2]
  rw [lintegral_add_left, lintegral_const_mul' _ _ ENNReal.ofReal_ne_top,
    lintegral_const_mul' _ _ ENNReal.ofReal_ne_top, lintegral_speedA hKm, lintegral_speedB hKm,
    ← lintegral_const_mul' _ _ ENNReal.ofReal_ne_top,
    ← lintegral_const_mul' _ _ ENNReal.ofReal_ne_top, ← lintegral_add_left (by fun_prop)]
  · refine setLIntegral_congr_fun measurableSet_Ioi fun x hx => ?_
    have hx : 0 < x := hx
    rw [← mul_assoc, ← mul_assoc, ← add_mul, ← ENNReal.ofReal_mul hc0,
      ← ENNReal.ofReal_mul (by linarith), ← ENNReal.ofReal_add (by positivity)
        (mul_nonneg (by linarith) (by positivity))]
    congr 2
    rw [hc]
    field_simp
    ring
  · exact Measurable.const_mul (Measurable.lintegral_prod_right' hgA) _

theorem measurable_accepting (y : ℝ) : Measurable fun p : ℝ × ℝ => accepting y p.1 p.2 := by
  unfold accepting relativeSpeed
  fun_prop

/-- Total weight of the acceptance of proposals, with `F` of the proposal. -/
noncomputable def accepted (y : ℝ) (F : ℝ × ℝ → ℝ≥0∞) : ℝ≥0∞ :=
  ∫⁻ x in Ioi (0 : ℝ), ∫⁻ μ in Ioo (-1 : ℝ) 1, ENNReal.ofReal (accepting y x μ) * F (x, μ)

/-- Total weight of rejection. -/
noncomputable def rejected (y : ℝ) : ℝ≥0∞ :=
  ∫⁻ x in Ioi (0 : ℝ), ∫⁻ μ in Ioo (-1 : ℝ) 1, ENNReal.ofReal (rejecting y x μ)

/-- One pass accepts or rejects. -/
theorem lintegral_onePass_eq {y : ℝ} (hy : 0 < y) {F : ℝ × ℝ → ℝ≥0∞} (hF : Measurable F)
    {R : (ℕ → ℝ) → ℝ≥0∞} (hR : Measurable R) :
    ∫⁻ us, onePass y F R us ∂uniforms =
      accepted y F + rejected y * ∫⁻ us, R us ∂uniforms := by
  rw [lintegral_onePass hy hF hR]
  set I := ∫⁻ us, R us ∂uniforms
  have hden : 0 < Real.sqrt Real.pi * y + 2 := by positivity
  have hm1 : Measurable fun p : ℝ × ℝ => ENNReal.ofReal (accepting y p.1 p.2) * F (p.1, p.2) :=
    ((measurable_accepting y).ennreal_ofReal).mul hF
  have hm2 : Measurable fun p : ℝ × ℝ => ENNReal.ofReal (rejecting y p.1 p.2) := by
    unfold rejecting relativeSpeed
    fun_prop
  have h1 : ∀ x ∈ Ioi (0 : ℝ), ENNReal.ofReal (4 / (Real.sqrt Real.pi * y + 2) * x ^ 2 *
      Real.exp (-x ^ 2) * (x + y)) * passEnd y F I x =
      (∫⁻ μ in Ioo (-1 : ℝ) 1, ENNReal.ofReal (accepting y x μ) * F (x, μ)) +
        (∫⁻ μ in Ioo (-1 : ℝ) 1, ENNReal.ofReal (rejecting y x μ)) * I := by
    intro x hx
    have hx : 0 < x := hx
    have hx1 : Measurable fun μ => ENNReal.ofReal (accepting y x μ) * F (x, μ) := by
      unfold accepting relativeSpeed
      fun_prop
    have hx2 : Measurable fun μ => ENNReal.ofReal (rejecting y x μ) := by
      unfold rejecting relativeSpeed
      fun_prop
    have hcos : passEnd y F I x = ENNReal.ofReal (1 / 2) * ∫⁻ μ in Ioo (-1 : ℝ) 1,
        (ENNReal.ofReal (relativeSpeed y x μ / (x + y)) * F (x, μ) +
          ENNReal.ofReal (1 - relativeSpeed y x μ / (x + y)) * I) :=
      lintegral_cosine (fun μ => ENNReal.ofReal (relativeSpeed y x μ / (x + y)) * F (x, μ) +
        ENNReal.ofReal (1 - relativeSpeed y x μ / (x + y)) * I)
    rw [hcos, ← mul_assoc, ← ENNReal.ofReal_mul (by positivity),
      ← lintegral_const_mul' _ _ ENNReal.ofReal_ne_top]
    rw [← lintegral_mul_const I hx2, ← lintegral_add_left hx1]
    refine setLIntegral_congr_fun measurableSet_Ioo fun μ hμ => ?_
    have hle := relativeSpeed_le hy hx.le hμ.1.le
    have h0 := relativeSpeed_nonneg y x μ
    rw [mul_add, ← mul_assoc, ← mul_assoc, ← ENNReal.ofReal_mul (by positivity),
      ← ENNReal.ofReal_mul (by positivity)]
    unfold accepting rejecting
    congr 3
    · field_simp
      ring
    · field_simp
      ring
  rw [setLIntegral_congr_fun measurableSet_Ioi h1, lintegral_add_left, lintegral_mul_const]
  · rfl
  · exact Measurable.lintegral_prod_right' hm2
  · exact Measurable.lintegral_prod_right' hm1

theorem accepted_add_rejected {y : ℝ} (hy : 0 < y) :
    accepted y (fun _ => 1) + rejected y = 1 := by
  have h := lintegral_onePass_eq hy (F := fun _ => 1) measurable_const (R := fun _ => 1)
    measurable_const
  have e : ∀ us, onePass y (fun _ => 1) (fun _ => 1) us = 1 := fun us => by
    unfold onePass; split_ifs <;> rfl
  simp_rw [e] at h
  rw [lintegral_const, measure_univ, mul_one, mul_one] at h
  exact h.symm

/-- Value of `F` at the chosen target, zero while there is none. -/
def valueAt (F : ℝ × ℝ → ℝ≥0∞) : Option (ℝ × ℝ) → ℝ≥0∞
  | none => 0
  | some z => F z

theorem valueAt_succ (y : ℝ) (F : ℝ × ℝ → ℝ≥0∞) (n : ℕ) (us : ℕ → ℝ) :
    valueAt F (chosen y (n + 1) us) = onePass y F (fun us => valueAt F (chosen y n us)) us := by
  unfold onePass
  rw [chosen]
  simp only
  split_ifs <;> rfl

theorem measurable_valueAt (y : ℝ) {F : ℝ × ℝ → ℝ≥0∞} (hF : Measurable F) : ∀ n,
    Measurable fun us => valueAt F (chosen y n us)
  | 0 => measurable_const
  | n + 1 => by
    simp_rw [valueAt_succ]
    exact measurable_onePass y hF (measurable_valueAt y hF n)

theorem lintegral_valueAt {y : ℝ} (hy : 0 < y) {F : ℝ × ℝ → ℝ≥0∞} (hF : Measurable F) : ∀ n,
    ∫⁻ us, valueAt F (chosen y n us) ∂uniforms =
      accepted y F * ∑ k ∈ Finset.range n, rejected y ^ k
  | 0 => by simp [chosen, valueAt]
  | n + 1 => by
    simp_rw [valueAt_succ]
    rw [lintegral_onePass_eq hy hF (measurable_valueAt y hF n), lintegral_valueAt hy hF n,
      Finset.sum_range_succ']
    simp only [pow_succ, pow_zero, ← Finset.sum_mul]
    ring

theorem chosen_succ {y : ℝ} {z : ℝ × ℝ} : ∀ {n : ℕ} {us : ℕ → ℝ}, chosen y n us = some z →
    chosen y (n + 1) us = some z
  | n + 1, us, h => by
    rw [chosen] at h ⊢
    simp only at h ⊢
    split_ifs at h ⊢ with hc
    · exact h
    · exact chosen_succ h

/-- Sampling until a target is chosen. -/
theorem uniforms_chosen {y : ℝ} (hy : 0 < y) {A : Set (ℝ × ℝ)} (hA : MeasurableSet A) :
    uniforms {us | ∃ n, ∃ z ∈ A, chosen y n us = some z} =
      accepted y (A.indicator fun _ => 1) / accepted y fun _ => 1 := by
  have hF : Measurable (A.indicator fun _ => (1 : ℝ≥0∞)) := measurable_const.indicator hA
  have hn : ∀ n us, valueAt (A.indicator fun _ => 1) (chosen y n us) =
      {us | ∃ z ∈ A, chosen y n us = some z}.indicator (fun _ => 1) us := by
    intro n us
    by_cases h : ∃ z ∈ A, chosen y n us = some z
    · rw [indicator_of_mem (by exact h)]
      obtain ⟨z, hz, e⟩ := h
      rw [e, valueAt, indicator_of_mem hz]
    · rw [indicator_of_notMem (by exact h)]
      cases e : chosen y n us with
      | none => rfl
      | some z =>
        rw [valueAt, indicator_of_notMem]
        exact fun hz => h ⟨z, hz, e⟩
  have hm : ∀ n, MeasurableSet {us | ∃ z ∈ A, chosen y n us = some z} := by
    intro n
    have h := measurable_valueAt y hF n
    simp_rw [hn] at h
    exact (measurable_indicator_const_iff (1 : ℝ≥0∞)).1 h
  have hI : ∀ n, uniforms {us | ∃ z ∈ A, chosen y n us = some z} =
      accepted y (A.indicator fun _ => 1) * ∑ k ∈ Finset.range n, rejected y ^ k := by
    intro n
    rw [← lintegral_valueAt hy hF n]
    simp_rw [hn]
    rw [lintegral_indicator (hm n), setLIntegral_const, one_mul]
  have hmono : Monotone fun n => {us | ∃ z ∈ A, chosen y n us = some z} := by
    refine monotone_nat_of_le_succ fun n us => ?_
    rintro ⟨z, hz, h⟩
    exact ⟨z, hz, chosen_succ h⟩
  have hU : {us | ∃ n, ∃ z ∈ A, chosen y n us = some z} =
      ⋃ n, {us | ∃ z ∈ A, chosen y n us = some z} := by
    ext us; simp
  have hlim := tendsto_measure_iUnion_atTop (μ := uniforms) hmono
  rw [← hU] at hlim
  have hsum : Filter.Tendsto (fun n => accepted y (A.indicator fun _ => 1) *
      ∑ k ∈ Finset.range n, rejected y ^ k) Filter.atTop
      (nhds (accepted y (A.indicator fun _ => 1) / accepted y fun _ => 1)) := by
    have h1 := accepted_add_rejected hy
    have hne : accepted y (fun _ => 1) ≠ ⊤ := by
      intro h; rw [h, top_add] at h1; exact ENNReal.top_ne_one h1
    have hr : rejected y ≠ ⊤ := by
      intro h; rw [h, add_top] at h1; exact ENNReal.top_ne_one h1
    have hq : 1 - rejected y = accepted y (fun _ => 1) := by
      exact ENNReal.sub_eq_of_eq_add hr h1.symm
    have hle : accepted y (A.indicator fun _ => 1) ≤ accepted y fun _ => 1 := by
      unfold accepted
      refine lintegral_mono fun x => lintegral_mono fun μ => ?_
      exact mul_le_mul_right (indicator_le_self' (fun _ _ => zero_le) _) _
    have ht := ENNReal.tendsto_nat_tsum fun k => rejected y ^ k
    rw [ENNReal.tsum_geometric, hq] at ht
    rw [div_eq_mul_inv]
    refine ENNReal.Tendsto.const_mul ht (Or.inr ?_)
    exact ne_top_of_le_ne_top hne hle
  refine tendsto_nhds_unique hlim ?_
  simp only [Function.comp_def, hI]
  exact hsum

/-- The weight of acceptance in terms of speeds of atoms. -/
theorem accepting_scale {β : ℝ} (hβ : 0 < β) (v s μ : ℝ) :
    β * accepting (β * v) (β * s) μ =
      Real.sqrt Real.pi * β / (Real.sqrt Real.pi * (β * v) + 2) *
        (maxwell β s / 2 * relativeSpeed v s μ) := by
  unfold accepting maxwell
  rw [relativeSpeed_scale hβ]
  have hs : Real.sqrt Real.pi ≠ 0 := (Real.sqrt_pos.2 Real.pi_pos).ne'
  field_simp
  ring

theorem maxwell_nonneg {β : ℝ} (hβ : 0 < β) (s : ℝ) : 0 ≤ maxwell β s := by
  unfold maxwell
  positivity

theorem measurable_rate (β v : ℝ) :
    Measurable fun p : ℝ × ℝ => maxwell β p.1 / 2 * relativeSpeed v p.1 p.2 := by
  unfold maxwell relativeSpeed
  fun_prop

theorem accepted_eq {β v : ℝ} (hβ : 0 < β) (hv : 0 < v) (F : ℝ × ℝ → ℝ≥0∞) :
    accepted (β * v) F =
      ENNReal.ofReal (Real.sqrt Real.pi * β / (Real.sqrt Real.pi * (β * v) + 2)) *
        ∫⁻ s in Ioi (0 : ℝ), ∫⁻ μ in Ioo (-1 : ℝ) 1,
          ENNReal.ofReal (maxwell β s / 2 * relativeSpeed v s μ) * F (β * s, μ) := by
  have h := lintegral_image_eq_lintegral_abs_deriv_mul (s := Ioi (0 : ℝ))
    (f := fun s => β * s) (f' := fun _ => β) measurableSet_Ioi
    (fun x _ => by simpa using ((hasDerivAt_id x).const_mul β).hasDerivWithinAt)
    (fun a _ b _ hab => mul_left_cancel₀ hβ.ne' hab)
    (fun x => ∫⁻ μ in Ioo (-1 : ℝ) 1, ENNReal.ofReal (accepting (β * v) x μ) * F (x, μ))
  have hi : (fun s : ℝ => β * s) '' Ioi (0 : ℝ) = Ioi 0 := by
    ext x
    simp only [mem_image, mem_Ioi]
    constructor
    · rintro ⟨s, hs, rfl⟩; positivity
    · intro hx; exact ⟨x / β, by positivity, by field_simp⟩
  rw [hi, abs_of_pos hβ] at h
  unfold accepted
  rw [h, ← lintegral_const_mul' _ _ ENNReal.ofReal_ne_top]
  refine lintegral_congr fun s => ?_
  rw [← lintegral_const_mul' _ _ ENNReal.ofReal_ne_top,
    ← lintegral_const_mul' _ _ ENNReal.ofReal_ne_top]
  refine lintegral_congr fun μ => ?_
  rw [← mul_assoc, ← mul_assoc, ← ENNReal.ofReal_mul hβ.le, accepting_scale hβ,
    ← ENNReal.ofReal_mul (by positivity)]

/-- The mean relative speed as an integral of non-negative functions. -/
theorem lintegral_rate {β v : ℝ} (hβ : 0 < β) (hv : 0 < v) :
    ∫⁻ s in Ioi (0 : ℝ), ∫⁻ μ in Ioo (-1 : ℝ) 1,
      ENNReal.ofReal (maxwell β s / 2 * relativeSpeed v s μ) =
        ENNReal.ofReal (meanRelativeSpeed β v) := by
  have hpos : 0 < meanRelativeSpeed β v := by
    rw [meanRelativeSpeed_eq hβ hv]
    have := one_lt_adj (mul_pos hβ hv)
    positivity
  have hint : IntegrableOn (fun s => maxwell β s *
      ((∫ μ in (-1 : ℝ)..1, relativeSpeed v s μ) / 2)) (Ioi 0) := by
    by_contra hn
    have := integral_undef hn
    unfold meanRelativeSpeed at hpos
    linarith
  have hnn : ∀ s : ℝ, 0 ≤ ∫ μ in (-1 : ℝ)..1, relativeSpeed v s μ := fun s =>
    intervalIntegral.integral_nonneg (by norm_num) fun μ _ => relativeSpeed_nonneg _ _ _
  unfold meanRelativeSpeed
  rw [ofReal_integral_eq_lintegral_ofReal hint (Filter.Eventually.of_forall fun s =>
    mul_nonneg (maxwell_nonneg hβ s) (by have := hnn s; positivity))]
  refine lintegral_congr fun s => ?_
  have hc : _root_.Continuous fun μ => relativeSpeed v s μ := by
    unfold relativeSpeed
    fun_prop
  rw [mul_div_assoc', mul_div_right_comm, ENNReal.ofReal_mul (by
    have := maxwell_nonneg hβ s; positivity), intervalIntegral.integral_of_le (by norm_num),
    ofReal_integral_eq_lintegral_ofReal ((hc.integrableOn_Icc).mono_set Ioc_subset_Icc_self)
      (Filter.Eventually.of_forall fun μ => relativeSpeed_nonneg _ _ _),
    ← lintegral_const_mul' _ _ ENNReal.ofReal_ne_top, restrict_Ioo_eq_restrict_Ioc]
  refine lintegral_congr fun μ => ?_
  rw [ENNReal.ofReal_mul (by have := maxwell_nonneg hβ s; positivity)]

/-- Distribution of the chosen target. -/
theorem uniforms_target {β v : ℝ} (hβ : 0 < β) (hv : 0 < v) {A : Set (ℝ × ℝ)}
    (hA : MeasurableSet A) :
    uniforms {us | ∃ n x μ, chosen (β * v) n us = some (x, μ) ∧ (x / β, μ) ∈ A} =
      ∫⁻ s in Ioi (0 : ℝ), ∫⁻ μ in Ioo (-1 : ℝ) 1,
        A.indicator (fun z => ENNReal.ofReal (metDensity β v z.1 z.2)) (s, μ) := by
  have hm : MeasurableSet {z : ℝ × ℝ | (z.1 / β, z.2) ∈ A} := by
    have : Measurable fun z : ℝ × ℝ => (z.1 / β, z.2) := by fun_prop
    exact this hA
  have e : {us : ℕ → ℝ | ∃ n x μ, chosen (β * v) n us = some (x, μ) ∧ (x / β, μ) ∈ A} =
      {us | ∃ n, ∃ z ∈ {z : ℝ × ℝ | (z.1 / β, z.2) ∈ A}, chosen (β * v) n us = some z} := by
    ext us
    simp only [mem_ofPred_eq, Prod.exists]
    constructor
    · rintro ⟨n, x, μ, h1, h2⟩; exact ⟨n, x, μ, h2, h1⟩
    · rintro ⟨n, x, μ, h1, h2⟩; exact ⟨n, x, μ, h2, h1⟩
  have hpos : 0 < meanRelativeSpeed β v := by
    rw [meanRelativeSpeed_eq hβ hv]
    have := one_lt_adj (mul_pos hβ hv)
    positivity
  have hC : 0 < Real.sqrt Real.pi * β / (Real.sqrt Real.pi * (β * v) + 2) := by
    have := Real.sqrt_pos.2 Real.pi_pos
    positivity
  rw [e, uniforms_chosen (mul_pos hβ hv) hm, accepted_eq hβ hv, accepted_eq hβ hv]
  simp only [mul_one]
  rw [lintegral_rate hβ hv, ENNReal.mul_div_mul_left _ _ (by simpa using hC) ENNReal.ofReal_ne_top,
    div_eq_mul_inv, mul_comm, ← lintegral_const_mul' _ _ (by simpa using hpos)]
  refine lintegral_congr fun s => ?_
  rw [← lintegral_const_mul' _ _ (by simpa using hpos)]
  refine lintegral_congr fun μ => ?_
  unfold metDensity
  by_cases h : (s, μ) ∈ A
  · have h' : (β * s, μ) ∈ {z : ℝ × ℝ | (z.1 / β, z.2) ∈ A} := by
      simp only [mem_ofPred_eq]
      rwa [mul_div_cancel_left₀ _ hβ.ne']
    rw [indicator_of_mem h, indicator_of_mem h', mul_one, ENNReal.ofReal_div_of_pos hpos,
      mul_comm, ← div_eq_mul_inv]
  · rw [indicator_of_notMem h, indicator_of_notMem, mul_zero, mul_zero]
    simp only [mem_ofPred_eq]
    rwa [mul_div_cancel_left₀ _ hβ.ne']

/-- The density of the chosen target has integral one. -/
theorem lintegral_metDensity {β v : ℝ} (hβ : 0 < β) (hv : 0 < v) :
    ∫⁻ s in Ioi (0 : ℝ), ∫⁻ μ in Ioo (-1 : ℝ) 1, ENNReal.ofReal (metDensity β v s μ) = 1 := by
  have hpos : 0 < meanRelativeSpeed β v := by
    rw [meanRelativeSpeed_eq hβ hv]
    have := one_lt_adj (mul_pos hβ hv)
    positivity
  have e : ∀ s μ, ENNReal.ofReal (metDensity β v s μ) =
      (ENNReal.ofReal (meanRelativeSpeed β v))⁻¹ *
        ENNReal.ofReal (maxwell β s / 2 * relativeSpeed v s μ) := by
    intro s μ
    unfold metDensity
    rw [ENNReal.ofReal_div_of_pos hpos, div_eq_mul_inv, mul_comm]
  simp_rw [e]
  have ht : (ENNReal.ofReal (meanRelativeSpeed β v))⁻¹ ≠ ⊤ := by simpa using hpos
  simp_rw [lintegral_const_mul' _ _ ht]
  rw [lintegral_rate hβ hv, ENNReal.inv_mul_cancel (by simpa using hpos) ENNReal.ofReal_ne_top]

end Minimc.Spec
