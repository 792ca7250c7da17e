import Verif.Lemmas.Space
import Verif.Spec.Equilibrium

/-! # Pairs of velocities and elastic collisions -/

namespace Minimc

open Classical MeasureTheory Spec Set
open scoped ENNReal

variable {α : Type*} [MeasurableSpace α]

@[fun_prop]
theorem _root_.Measurable.combine {p q : α → ℝ} {v w : α → Point} (hp : Measurable p) (hv : Measurable v)
    (hq : Measurable q) (hw : Measurable w) : Measurable fun z => Spec.combine (p z) (v z) (q z) (w z) := by
  refine measurable_point ?_ ?_ ?_ <;> (unfold Spec.combine; fun_prop)

@[fun_prop]
theorem _root_.Measurable.normSq {v : α → Point} (hv : Measurable v) :
    Measurable fun z => Spec.normSq (v z) := by
  unfold Spec.normSq
  fun_prop

@[fun_prop]
theorem _root_.Measurable.struck {v w n : α → Point} (A : ℝ) (hv : Measurable v) (hw : Measurable w)
    (hn : Measurable n) : Measurable fun z => Spec.struck A (v z) (w z) (n z) := by
  unfold Spec.struck
  fun_prop

/-- The velocities of two bodies in terms of their relative velocity and that of the centre of mass. -/
theorem lintegral_pairs {A : ℝ} (hA : 0 < A) {Φ : Point × Point → ℝ≥0∞} (hΦ : Measurable Φ) :
    ∫⁻ v, ∫⁻ V, Φ (v, V) ∂spaceVolume ∂spaceVolume =
      ∫⁻ C, ∫⁻ U, Φ (combine 1 C (A / (1 + A)) U, combine 1 C (-1 / (1 + A)) U)
        ∂spaceVolume ∂spaceVolume := by
  have hA1 : 1 + A ≠ 0 := by positivity
  rw [lintegral_lintegral_swap (f := fun v V => Φ (v, V)) hΦ.aemeasurable]
  have h1 : ∀ V, ∫⁻ v, Φ (v, V) ∂spaceVolume = ∫⁻ U, Φ (combine 1 U 1 V, V) ∂spaceVolume := by
    intro V
    rw [← lintegral_translate (F := fun v => Φ (v, V)) (hΦ.comp (by fun_prop)) V]
    refine lintegral_congr fun U => ?_
    congr 2
    unfold combine
    ext <;> simp
  simp only [h1]
  rw [lintegral_lintegral_swap (f := fun V U => Φ (combine 1 U 1 V, V))
    (Measurable.aemeasurable (hΦ.comp (by fun_prop)))]
  have h2 : ∀ U, ∫⁻ V, Φ (combine 1 U 1 V, V) ∂spaceVolume =
      ∫⁻ C, Φ (combine 1 C (A / (1 + A)) U, combine 1 C (-1 / (1 + A)) U) ∂spaceVolume := by
    intro U
    rw [← lintegral_translate (F := fun V => Φ (combine 1 U 1 V, V)) (hΦ.comp (by fun_prop))
      (combine (-1 / (1 + A)) U 0 U)]
    refine lintegral_congr fun C => ?_
    congr 2
    · unfold combine
      ext <;> simp <;> field_simp <;> ring
    · unfold combine
      ext <;> simp
  simp only [h2]
  exact lintegral_lintegral_swap (f := fun U C =>
    Φ (combine 1 C (A / (1 + A)) U, combine 1 C (-1 / (1 + A)) U))
    (Measurable.aemeasurable (hΦ.comp (by fun_prop)))

theorem normSq_nonneg (v : Point) : 0 ≤ normSq v := by
  unfold normSq
  positivity

theorem normSq_smul (d : Point) (r : ℝ) : normSq (d.smul r) = r ^ 2 * normSq d := by
  unfold normSq Point.smul
  ring

theorem unitVec_sphere {z φ : ℝ} (hz : z ∈ Ioo (-1 : ℝ) 1) :
    UnitVec ⟨z, Real.sqrt (1 - z ^ 2) * Real.cos φ, Real.sqrt (1 - z ^ 2) * Real.sin φ⟩ := by
  have h : 0 ≤ 1 - z ^ 2 := by nlinarith [hz.1, hz.2]
  have h1 := Real.sq_sqrt h
  have h2 := Real.cos_sq_add_sin_sq φ
  unfold UnitVec
  simp only
  linear_combination (Real.cos φ ^ 2 + Real.sin φ ^ 2) * h1 + (1 - z ^ 2) * h2

/-- Only directions of unit length matter for a mean over the sphere. -/
theorem sphereMean_congr {F G : Direction → ℝ≥0∞} (h : ∀ d, UnitVec d → F d = G d) :
    sphereMean F = sphereMean G := by
  unfold sphereMean
  congr 1
  refine setLIntegral_congr_fun measurableSet_Ioo fun z hz => lintegral_congr fun φ => ?_
  exact h _ (unitVec_sphere hz)

theorem sphereMean_const_mul {F : Direction → ℝ≥0∞} (hF : Measurable F) (c : ℝ≥0∞) :
    (sphereMean fun d => c * F d) = c * sphereMean F := by
  rw [← lintegral_sphereLaw hF, ← lintegral_const_mul c hF, ← lintegral_sphereLaw (hF.const_mul c)]

theorem sphereMean_const (c : ℝ≥0∞) : (sphereMean fun _ => c) = c := by
  rw [← lintegral_sphereLaw measurable_const, lintegral_const, measure_univ, mul_one]

theorem normSq_unit {d : Direction} (h : UnitVec d) : normSq d = 1 := h

theorem sqrt_normSq_smul {d : Direction} (h : UnitVec d) {r : ℝ} (hr : 0 ≤ r) :
    Real.sqrt (normSq (d.smul r)) = r := by
  rw [normSq_smul, normSq_unit h, mul_one, Real.sqrt_sq hr]

/-- A vector may be turned evenly about the origin. -/
theorem lintegral_scrambled (f : ℝ → ℝ≥0∞) (hf : Measurable f) (k : ℝ) (C : Point) {H : Point → ℝ≥0∞}
    (hH : Measurable H) :
    ∫⁻ U, f (normSq U) * sphereMean (fun n => H (combine 1 C (k * Real.sqrt (normSq U)) n)) ∂spaceVolume =
      ∫⁻ U, f (normSq U) * H (combine 1 C k U) ∂spaceVolume := by
  have hs : ∀ U : Point, sphereMean (fun n => H (combine 1 C (k * Real.sqrt (normSq U)) n)) =
      ∫⁻ n, H (combine 1 C (k * Real.sqrt (normSq U)) n) ∂sphereLaw := fun U =>
    (lintegral_sphereLaw (hH.comp (by fun_prop))).symm
  have hm : Measurable fun U : Point =>
      sphereMean fun n => H (combine 1 C (k * Real.sqrt (normSq U)) n) := by
    simp only [hs]
    exact Measurable.lintegral_prod_right' (f := fun q : Point × Point =>
      H (combine 1 C (k * Real.sqrt (normSq q.1)) q.2)) (hH.comp (by fun_prop))
  have hm1 : Measurable fun U : Point => f (normSq U) := hf.comp (by fun_prop)
  have hm2 : Measurable fun U : Point => H (combine 1 C k U) := hH.comp (by fun_prop)
  rw [lintegral_space (F := fun U => f (normSq U) *
      sphereMean fun n => H (combine 1 C (k * Real.sqrt (normSq U)) n)) (hm1.mul hm),
    lintegral_space (F := fun U => f (normSq U) * H (combine 1 C k U)) (hm1.mul hm2)]
  congr 1
  refine setLIntegral_congr_fun measurableSet_Ioi fun r hr => ?_
  have hr : 0 < r := hr
  have hn : ∀ d, UnitVec d → normSq (d.smul r) = r ^ 2 := fun d hd => by
    rw [normSq_smul, normSq_unit hd, mul_one]
  congr 1
  have e1 : (sphereMean fun d => f (normSq (d.smul r)) *
      sphereMean fun n => H (combine 1 C (k * Real.sqrt (normSq (d.smul r))) n)) =
      f (r ^ 2) * sphereMean fun n => H (combine 1 C (k * r) n) := by
    rw [← sphereMean_const (f (r ^ 2) * sphereMean fun n => H (combine 1 C (k * r) n))]
    refine sphereMean_congr fun d hd => ?_
    rw [sqrt_normSq_smul hd hr.le, hn d hd]
  have e2 : (sphereMean fun d => f (normSq (d.smul r)) * H (combine 1 C k (d.smul r))) =
      sphereMean fun d => f (r ^ 2) * H (combine 1 C (k * r) d) := by
    refine sphereMean_congr fun d hd => ?_
    rw [hn d hd]
    congr 2
    unfold combine Point.smul
    ext <;> simp only <;> ring
  have e3 : (sphereMean fun d => f (r ^ 2) * H (combine 1 C (k * r) d)) =
      f (r ^ 2) * sphereMean fun n => H (combine 1 C (k * r) n) :=
    sphereMean_const_mul (F := fun d => H (combine 1 C (k * r) d)) (hH.comp (by fun_prop)) _
  exact e1.trans (e3.symm.trans e2.symm)

/-- Weight of a pair of velocities: a gas of neutrons and a gas of atoms at the same temperature, and
collisions in proportion to the relative speed. -/
noncomputable def pairWeight (A c : ℝ) (v V : Point) : ℝ≥0∞ :=
  ENNReal.ofReal (Real.exp (-(c * normSq v)) * Real.exp (-(A * c * normSq V)) *
    Real.sqrt (normSq (combine 1 v (-1) V)))

theorem measurable_pairWeight (A c : ℝ) : Measurable fun q : Point × Point => pairWeight A c q.1 q.2 := by
  unfold pairWeight
  fun_prop

theorem pairWeight_eq {A : ℝ} (hA : 0 < A) (c : ℝ) (C U : Point) :
    pairWeight A c (combine 1 C (A / (1 + A)) U) (combine 1 C (-1 / (1 + A)) U) =
      ENNReal.ofReal (Real.exp (-((1 + A) * c * normSq C))) *
        ENNReal.ofReal (Real.exp (-(A / (1 + A) * c * normSq U)) * Real.sqrt (normSq U)) := by
  have hA1 : 1 + A ≠ 0 := by positivity
  unfold pairWeight
  rw [← ENNReal.ofReal_mul (Real.exp_pos _).le, ← mul_assoc, ← Real.exp_add, ← Real.exp_add]
  congr 2
  · congr 1
    unfold combine normSq
    simp only
    field_simp
    ring
  · congr 1
    unfold combine normSq
    simp only
    field_simp
    ring

theorem struck_eq {A : ℝ} (hA : 0 < A) (C U n : Point) :
    struck A (combine 1 C (A / (1 + A)) U) (combine 1 C (-1 / (1 + A)) U) n =
      combine 1 C (A / (1 + A) * Real.sqrt (normSq U)) n := by
  have hA1 : 1 + A ≠ 0 := by positivity
  have e1 : combine 1 (combine 1 C (A / (1 + A)) U) (-1) (combine 1 C (-1 / (1 + A)) U) = U := by
    unfold combine
    ext <;> simp only <;> field_simp <;> ring
  have e2 : combine (1 / (1 + A)) (combine 1 C (A / (1 + A)) U) (A / (1 + A))
      (combine 1 C (-1 / (1 + A)) U) = C := by
    unfold combine
    ext <;> simp only <;> field_simp <;> ring
  unfold struck
  rw [e1, e2]

/-- Collisions do not change the distribution of the velocities in equilibrium. -/
theorem lintegral_equilibrium {A : ℝ} (hA : 0 < A) (c : ℝ) {H : Point → ℝ≥0∞} (hH : Measurable H) :
    ∫⁻ v, ∫⁻ V, pairWeight A c v V * sphereMean (fun n => H (struck A v V n))
        ∂spaceVolume ∂spaceVolume =
      ∫⁻ v, ∫⁻ V, pairWeight A c v V * H v ∂spaceVolume ∂spaceVolume := by
  have hs : ∀ v V : Point, sphereMean (fun n => H (struck A v V n)) =
      ∫⁻ n, H (struck A v V n) ∂sphereLaw := fun v V =>
    (lintegral_sphereLaw (hH.comp (by fun_prop))).symm
  have hm : Measurable fun q : Point × Point => sphereMean fun n => H (struck A q.1 q.2 n) := by
    simp only [hs]
    exact Measurable.lintegral_prod_right' (f := fun q : (Point × Point) × Point =>
      H (struck A q.1.1 q.1.2 q.2)) (hH.comp (by fun_prop))
  have hw := measurable_pairWeight A c
  rw [lintegral_pairs hA (Φ := fun q => pairWeight A c q.1 q.2 *
      sphereMean fun n => H (struck A q.1 q.2 n)) (hw.mul hm),
    lintegral_pairs hA (Φ := fun q => pairWeight A c q.1 q.2 * H q.1)
      (hw.mul (hH.comp measurable_fst))]
  refine lintegral_congr fun C => ?_
  simp only [pairWeight_eq hA, struck_eq hA, mul_assoc]
  rw [lintegral_const_mul' _ _ ENNReal.ofReal_ne_top, lintegral_const_mul' _ _ ENNReal.ofReal_ne_top]
  congr 1
  have h := lintegral_scrambled (fun q => ENNReal.ofReal (Real.exp (-(A / (1 + A) * (c * q))) *
    Real.sqrt q)) (by fun_prop) (A / (1 + A)) C hH
  exact h

end Minimc
