import Verif.Lemmas.Walk
import Verif.Props.Isotropy
import Verif.Props.Attenuation

/-! # Means over the numbers of the walk -/

namespace Minimc

open Classical MeasureTheory Spec Set
open scoped ENNReal

/-- The first number of a sequence integrated apart from the others, which are used shifted. -/
theorem lintegral_first {F : ℝ → (ℕ → ℝ) → ℝ≥0∞} (hF : Measurable fun q : ℝ × (ℕ → ℝ) => F q.1 q.2) :
    ∫⁻ us, F (us 0) (fun k => us (k + 1)) ∂uniforms = ∫⁻ u, ∫⁻ us, F u us ∂uniforms ∂uniform := by
  rw [lintegral_uniforms]
  · rfl
  · exact hF.comp ((measurable_pi_apply 0).prodMk (measurable_shift measurable_id 1))

/-- A number that is not used. -/
theorem lintegral_skip {F : (ℕ → ℝ) → ℝ≥0∞} (hF : Measurable F) :
    ∫⁻ us, F (fun k => us (k + 1)) ∂uniforms = ∫⁻ us, F us ∂uniforms := by
  rw [lintegral_first (F := fun _ us => F us) (hF.comp measurable_snd)]
  simp

theorem uniform_selected {ws : List ℝ} (hnn : ∀ w ∈ ws, 0 ≤ w) {i : ℕ} (hi : i < ws.length) :
    uniform {u | Selected ws (u * ws.sum) i} = ENNReal.ofReal (ws.getD i 0 / ws.sum) := by
  have h0 : 0 ≤ ws.sum := List.sum_nonneg hnn
  rcases h0.eq_or_lt with h | h
  · have : {u | Selected ws (u * ws.sum) i} = ∅ := by
      ext u
      simp only [Set.mem_ofPred_eq, Set.mem_empty_iff_false, iff_false]
      rintro ⟨-, -, h2⟩
      have := take_sum_mono hnn (show i + 1 ≤ ws.length by omega)
      rw [List.take_length] at this
      rw [← h] at h2 this
      linarith
    rw [this, ← h]
    simp
  · have e := prob_selected hnn h hi
    unfold prob at e
    rw [uniform, Measure.restrict_apply (measurableSet_selected ws ws.sum i), e]
    simp [List.getD_eq_getElem?_getD, hi]

/-- The mean of a choice by weight. -/
theorem lintegral_byWeight {ws : List ℝ} (hnn : ∀ w ∈ ws, 0 ≤ w) {F : ℕ → (ℕ → ℝ) → ℝ≥0∞}
    (hF : ∀ i, Measurable (F i)) :
    ∫⁻ us, byWeight ws (us 0) (fun i => F i fun k => us (k + 1)) ∂uniforms =
      ∑ i ∈ Finset.range ws.length, ENNReal.ofReal (ws.getD i 0 / ws.sum) * ∫⁻ us, F i us ∂uniforms := by
  rw [lintegral_first (F := fun u us => byWeight ws u fun i => F i us)
    (measurable_byWeight ws measurable_fst fun i => (hF i).comp measurable_snd)]
  have h1 : ∀ u, ∫⁻ us, byWeight ws u (fun i => F i us) ∂uniforms =
      ∑ i ∈ Finset.range ws.length, {u | Selected ws (u * ws.sum) i}.indicator
        (fun _ => ∫⁻ us, F i us ∂uniforms) u := by
    intro u
    unfold byWeight
    rw [lintegral_finsetSum]
    · refine Finset.sum_congr rfl fun i _ => ?_
      by_cases h : Selected ws (u * ws.sum) i
      · simp [h]
      · simp [h]
    · intro i _
      split_ifs
      · exact hF i
      · exact measurable_const
  simp only [h1]
  rw [lintegral_finsetSum]
  · refine Finset.sum_congr rfl fun i hi => ?_
    rw [lintegral_indicator (measurableSet_selected ws ws.sum i), setLIntegral_const,
      uniform_selected hnn (by simpa using hi), mul_comm]
  · intro i _
    exact measurable_const.indicator (measurableSet_selected ws ws.sum i)

theorem measurableAt_of {F : Point → ℝ≥0∞} (hF : Measurable F) : MeasurableAt F := by
  unfold MeasurableAt
  exact hF.comp (measurable_point (by fun_prop) (by fun_prop) (by fun_prop))

/-- The mean over two numbers that give a direction. -/
theorem lintegral_directionFrom {F : Direction → (ℕ → ℝ) → ℝ≥0∞}
    (hF : Measurable fun q : Direction × (ℕ → ℝ) => F q.1 q.2) :
    ∫⁻ us, F (directionFrom (us 0) (us 1)) (fun k => us (k + 2)) ∂uniforms =
      sphereMean fun d => ∫⁻ us, F d us ∂uniforms := by
  have hE : Measurable fun d : Direction => ∫⁻ us, F d us ∂uniforms := hF.lintegral_prod_right'
  have h1 : ∫⁻ us, F (directionFrom (us 0) (us 1)) (fun k => us (k + 2)) ∂uniforms =
      ∫⁻ u, ∫⁻ us, F (directionFrom u (us 0)) (fun k => us (k + 1)) ∂uniforms ∂uniform := by
    refine lintegral_first (F := fun u us => F (directionFrom u (us 0)) fun k => us (k + 1)) ?_
    exact hF.comp ((measurable_directionFrom measurable_fst
      (measurable_at measurable_snd 0)).prodMk (measurable_shift measurable_snd 1))
  have h2 : ∀ u, ∫⁻ us, F (directionFrom u (us 0)) (fun k => us (k + 1)) ∂uniforms =
      ∫⁻ v, ∫⁻ us, F (directionFrom u v) us ∂uniforms ∂uniform := by
    intro u
    refine lintegral_first (F := fun v us => F (directionFrom u v) us) ?_
    exact hF.comp ((measurable_directionFrom measurable_const measurable_fst).prodMk measurable_snd)
  rw [h1]
  simp only [h2]
  have h3 := Props.lintegral_directionOf (measurableAt_of hE)
  have hm : Measurable fun p : ℝ × ℝ => ∫⁻ us, F (directionFrom p.1 p.2) us ∂uniforms :=
    hE.comp (measurable_directionFrom measurable_fst measurable_snd)
  simp only [← Props.directionFrom_eq] at h3
  rw [lintegral_prod _ hm.aemeasurable] at h3
  rw [h3]
  unfold sphereMean spherePoints sphere
  rw [← mul_assoc, ← ENNReal.ofReal_mul (by norm_num)]
  have : (1 : ℝ) / 2 * (2 * Real.pi)⁻¹ = 1 / (4 * Real.pi) := by
    field_simp
    norm_num
  rw [this]
  simp only [sq]

/-- The mean over the number that gives the flight. -/
theorem lintegral_flight {M : ℝ} (hM : 0 < M) (F : ℝ → ℝ≥0∞) :
    ∫⁻ u, F (-Real.log (1 - u) / M) ∂uniform =
      ∫⁻ s in Ioi (0 : ℝ), ENNReal.ofReal (M * Real.exp (-(M * s))) * F s := by
  have hd : ∀ x ∈ Ici (0 : ℝ), HasDerivWithinAt (fun s => 1 - Real.exp (-(M * s)))
      (M * Real.exp (-(M * x))) (Ici 0) x := by
    intro x _
    have h1 : HasDerivAt (fun s : ℝ => -(M * s)) (-M) x := by
      have := (hasDerivAt_id' x).const_mul (-M)
      simp only [mul_one, neg_mul] at this
      exact this
    have h2 := (h1.exp.const_sub 1).hasDerivWithinAt (s := Ici (0 : ℝ))
    rw [show M * Real.exp (-(M * x)) = -(Real.exp (-(M * x)) * -M) by ring]
    exact h2
  have hi : InjOn (fun s : ℝ => 1 - Real.exp (-(M * s))) (Ici 0) := by
    intro a _ b _ h
    have h' : Real.exp (-(M * a)) = Real.exp (-(M * b)) := by
      simp only at h
      linarith
    have := Real.exp_injective h'
    nlinarith
  have himg : (fun s : ℝ => 1 - Real.exp (-(M * s))) '' Ici 0 = Ico 0 1 := by
    ext u
    simp only [mem_image, mem_Ici, mem_Ico]
    constructor
    · rintro ⟨s, hs, rfl⟩
      have h1 : Real.exp (-(M * s)) ≤ 1 := Real.exp_le_one_iff.2 (by nlinarith)
      have h2 := Real.exp_pos (-(M * s))
      constructor <;> linarith
    · rintro ⟨h0, h1⟩
      refine ⟨-Real.log (1 - u) / M, length_nonneg hM h0 h1, ?_⟩
      have : -(M * (-Real.log (1 - u) / M)) = Real.log (1 - u) := by field_simp
      rw [this, Real.exp_log (by linarith)]
      ring
  have h := lintegral_image_eq_lintegral_abs_deriv_mul measurableSet_Ici hd hi
    fun u => F (-Real.log (1 - u) / M)
  rw [himg] at h
  unfold uniform
  rw [h, restrict_Ioi_eq_restrict_Ici]
  refine lintegral_congr fun s => ?_
  rw [abs_of_pos (by positivity)]
  have : -Real.log (1 - (1 - Real.exp (-(M * s)))) / M = s := by
    rw [show 1 - (1 - Real.exp (-(M * s))) = Real.exp (-(M * s)) by ring, Real.log_exp]
    field_simp
  rw [this]

end Minimc
