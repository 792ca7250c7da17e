import Verif.Props.Point
import Verif.Lemmas.Isotropy

/-! # C02: random directions are distributed evenly on the sphere -/

namespace Minimc.Props

open Minimc.Spec MeasureTheory Set
open scoped ENNReal

/-- A set of points that has a volume. -/
def MeasurablePoints (S : Set Point) : Prop :=
  MeasurableSet {p : ℝ × ℝ × ℝ | (⟨p.1, p.2.1, p.2.2⟩ : Point) ∈ S}

/-- The direction made of two uniform numbers. -/
noncomputable def directionOf (u v : ℝ) : Direction :=
  Direction.isotropicOf (2 * u - 1) (2 * Real.pi * v)

theorem measurableAt_indicator {S : Set Point} (hS : MeasurablePoints S) :
    MeasurableAt (S.indicator fun _ => 1) := by
  unfold MeasurableAt
  have : (fun p : ℝ × ℝ × ℝ => S.indicator (fun _ => (1 : ℝ≥0∞)) ⟨p.1, p.2.1, p.2.2⟩) =
      {p : ℝ × ℝ × ℝ | (⟨p.1, p.2.1, p.2.2⟩ : Point) ∈ S}.indicator fun _ => 1 := by
    funext p
    rfl
  rw [this]
  exact measurable_const.indicator hS

theorem lintegral_directionOf {F : Point → ℝ≥0∞} (hF : MeasurableAt F) :
    ∫⁻ p, F (directionOf p.1 p.2) ∂(uniform.prod uniform) =
      ENNReal.ofReal (1 / 2) * (ENNReal.ofReal (2 * Real.pi)⁻¹ * spherePoints F) := by
  have hm : Measurable fun p : ℝ × ℝ => F (directionOf p.1 p.2) := by
    unfold directionOf Direction.isotropicOf
    exact hF.comp (g := fun p : ℝ × ℝ × ℝ => F ⟨p.1, p.2.1, p.2.2⟩) (f := fun p : ℝ × ℝ =>
      (2 * p.1 - 1, Real.sqrt (1 - (2 * p.1 - 1) * (2 * p.1 - 1)) * Real.cos (2 * Real.pi * p.2),
        Real.sqrt (1 - (2 * p.1 - 1) * (2 * p.1 - 1)) * Real.sin (2 * Real.pi * p.2)))
      (by fun_prop)
  rw [lintegral_prod _ hm.aemeasurable]
  have h1 : ∀ u : ℝ, ∫⁻ v, F (directionOf u v) ∂uniform = ENNReal.ofReal (2 * Real.pi)⁻¹ *
      ∫⁻ φ in Ioo 0 (2 * Real.pi), F (Direction.isotropicOf (2 * u - 1) φ) := fun u =>
    lintegral_scale (by positivity) fun φ => F (Direction.isotropicOf (2 * u - 1) φ)
  simp only [h1]
  rw [lintegral_const_mul' _ _ ENNReal.ofReal_ne_top,
    lintegral_cosine fun x => ∫⁻ φ in Ioo 0 (2 * Real.pi), F (Direction.isotropicOf x φ)]
  rw [← mul_assoc, ← mul_assoc, mul_comm (ENNReal.ofReal (2 * Real.pi)⁻¹)]
  rfl

theorem measure_directionOf {S : Set Point} (hS : MeasurablePoints S) :
    (uniform.prod uniform) {p | directionOf p.1 p.2 ∈ S} =
      ENNReal.ofReal (1 / 2) * (ENNReal.ofReal (2 * Real.pi)⁻¹ *
        spherePoints (S.indicator fun _ => 1)) := by
  rw [← lintegral_directionOf (measurableAt_indicator hS)]
  have hm : MeasurableSet {p : ℝ × ℝ | directionOf p.1 p.2 ∈ S} := by
    unfold directionOf Direction.isotropicOf
    exact (show Measurable fun p : ℝ × ℝ =>
      (2 * p.1 - 1, Real.sqrt (1 - (2 * p.1 - 1) * (2 * p.1 - 1)) * Real.cos (2 * Real.pi * p.2),
        Real.sqrt (1 - (2 * p.1 - 1) * (2 * p.1 - 1)) * Real.sin (2 * Real.pi * p.2))
      by fun_prop) hS
  rw [← lintegral_indicator_one hm]
  rfl

theorem measurablePoints_turned {S : Set Point} (hS : MeasurablePoints S) (w : Point) (angle : ℝ) :
    MeasurablePoints {x | turned w angle x ∈ S} := by
  have h1 := (measurableAt_indicator hS).turned w angle (measurableSet_singleton 1)
  have e : (fun p : ℝ × ℝ × ℝ => S.indicator (fun _ => (1 : ℝ≥0∞))
      (turned w angle ⟨p.1, p.2.1, p.2.2⟩)) ⁻¹' {1} =
      {p : ℝ × ℝ × ℝ | (⟨p.1, p.2.1, p.2.2⟩ : Point) ∈ {x | turned w angle x ∈ S}} := by
    ext p
    simp [indicator]
  rwa [e] at h1

theorem measure_turned {w : Point} (hw : UnitVec w) (angle : ℝ) {S : Set Point}
    (hS : MeasurablePoints S) :
    (uniform.prod uniform) {p | turned w angle (directionOf p.1 p.2) ∈ S} =
      (uniform.prod uniform) {p | directionOf p.1 p.2 ∈ S} := by
  have e : ({x | turned w angle x ∈ S}.indicator fun _ => (1 : ℝ≥0∞)) =
      fun x => S.indicator (fun _ => 1) (turned w angle x) := rfl
  rw [measure_directionOf hS, ← turnsEvenly hw angle _ (measurableAt_indicator hS), ← e,
    ← measure_directionOf (measurablePoints_turned hS w angle)]
  rfl

theorem directionFrom_eq (u v : ℝ) : directionFrom u v = directionOf u v := by
  unfold directionFrom directionOf Direction.isotropicOf
  simp only [sq]

/-- **C02** The direction drawn is made of two uniform numbers by a formula that gives, if these are
independent, directions distributed evenly on the sphere: turning them about any axis by any angle does
not change the distribution. -/
theorem C02_isotropic :
    (∀ g, (Direction.isotropic g).1 =
      directionFrom (Rng.canonical g).1 (Rng.canonical (Rng.next^[2] g)).1) ∧
    (∀ u v, 0 ≤ u → u ≤ 1 → UnitVec (directionFrom u v)) ∧
    ∀ w, UnitVec w → ∀ (angle : ℝ) (S : Set Point), MeasurablePoints S →
      (uniform.prod uniform) {p | turned w angle (directionFrom p.1 p.2) ∈ S} =
        (uniform.prod uniform) {p | directionFrom p.1 p.2 ∈ S} := by
  simp only [directionFrom_eq]
  refine ⟨fun g => ?_, fun u v h0 h1 => ?_, fun w hw angle S hS => ?_⟩
  · rw [(C02_random_direction_formula g).1]
    unfold directionOf Direction.isotropicOf
    simp only [sq]
  · exact Direction.unitVec_isotropicOf (by linarith) (by linarith)
  · exact measure_turned hw angle hS

/-- **C02** The cosine of the drawn direction with any given axis is uniformly distributed. -/
theorem C02_cosine_any_axis :
    (∀ g, (Direction.isotropic g).1 =
      directionFrom (Rng.canonical g).1 (Rng.canonical (Rng.next^[2] g)).1) ∧
    ∀ w, UnitVec w → ∀ c, -1 ≤ c → c ≤ 1 →
      (uniform.prod uniform) {p | cosAngle w (directionFrom p.1 p.2) < c} =
        ENNReal.ofReal ((c + 1) / 2) := by
  refine ⟨C02_isotropic.1, fun w hw c h1 h2 => ?_⟩
  simp only [directionFrom_eq]
  · obtain ⟨a, b, rfl⟩ := exists_turns hw
    set w := turned ⟨1, 0, 0⟩ b (turned ⟨0, 0, 1⟩ a ⟨1, 0, 0⟩) with hw'
    have hS : MeasurablePoints {x | cosAngle w x < c} := by
      unfold MeasurablePoints cosAngle
      exact measurableSet_lt (f := fun p : ℝ × ℝ × ℝ => w.x * p.1 + w.y * p.2.1 + w.z * p.2.2)
        (by fun_prop) measurable_const
    have hx : UnitVec ⟨1, 0, 0⟩ := by norm_num [UnitVec]
    have hz : UnitVec ⟨0, 0, 1⟩ := by norm_num [UnitVec]
    have e1 := measure_turned hx b hS
    have e2 := measure_turned hz a (measurablePoints_turned hS ⟨1, 0, 0⟩ b)
    change _ = (uniform.prod uniform) {p | cosAngle w (directionOf p.1 p.2) < c} at e1
    rw [← e1]
    refine e2.symm.trans ?_
    have e3 : {p : ℝ × ℝ | turned ⟨0, 0, 1⟩ a (directionOf p.1 p.2) ∈
        {x | turned ⟨1, 0, 0⟩ b x ∈ {x | cosAngle w x < c}}} = Iio ((c + 1) / 2) ×ˢ univ := by
      ext p
      have : cosAngle w (turned ⟨1, 0, 0⟩ b (turned ⟨0, 0, 1⟩ a (directionOf p.1 p.2))) =
          2 * p.1 - 1 := by
        have ha := Real.cos_sq_add_sin_sq a
        have hb := Real.cos_sq_add_sin_sq b
        rw [hw']
        simp only [turned_x, turned_z, cosAngle, directionOf, Direction.isotropicOf]
        generalize Real.sqrt (1 - (2 * p.1 - 1) * (2 * p.1 - 1)) * Real.cos (2 * Real.pi * p.2) = y
        generalize Real.sqrt (1 - (2 * p.1 - 1) * (2 * p.1 - 1)) * Real.sin (2 * Real.pi * p.2) = z
        linear_combination (2 * p.1 - 1) * ha +
          Real.sin a * (y * Real.cos a + (2 * p.1 - 1) * Real.sin a) * hb
      simp only [mem_ofPred_eq, this, mem_prod, mem_Iio, mem_univ, and_true]
      constructor <;> intro h <;> linarith
    rw [e3, Measure.prod_prod, measure_univ, mul_one]
    unfold uniform
    rw [Measure.restrict_apply measurableSet_Iio]
    have : Iio ((c + 1) / 2) ∩ Ico 0 1 = Ico 0 ((c + 1) / 2) := by
      ext x
      simp only [mem_inter_iff, mem_Iio, mem_Ico]
      constructor
      · rintro ⟨k1, k2, -⟩; exact ⟨k2, k1⟩
      · rintro ⟨k1, k2⟩; exact ⟨k2, k1, by linarith⟩
    rw [this, Real.volume_Ico, sub_zero]

/-- A quarter of the directions is within sixty degrees of a direction between the first two axes. -/
example : (uniform.prod uniform) {p | cosAngle ⟨3 / 5, 4 / 5, 0⟩ (directionFrom p.1 p.2) < 1 / 2} =
    ENNReal.ofReal (3 / 4) := by
  rw [C02_cosine_any_axis.2 ⟨3 / 5, 4 / 5, 0⟩ (by norm_num [UnitVec]) (1 / 2) (by norm_num) (by norm_num)]
  norm_num

end Minimc.Props
