import Verif.Spec.Rotation
import Verif.Lemmas.Target
import Mathlib.Analysis.SpecialFunctions.PolarCoord
import Mathlib.MeasureTheory.Integral.IntervalIntegral.Periodic
import Mathlib.MeasureTheory.Measure.Haar.InnerProductSpace
import Mathlib.Analysis.Complex.Isometry

/-! # The even distribution on the sphere -/

namespace Minimc.Spec

open MeasureTheory Set
open scoped ENNReal

/-- Half a circle, with its projection on a diameter as the variable. -/
theorem lintegral_semicircle {s : ℝ} (hs : 0 < s) (G : ℝ → ℝ → ℝ≥0∞) :
    ∫⁻ φ in Ioo 0 Real.pi, G (s * Real.cos φ) (s * Real.sin φ) =
      ∫⁻ y in Ioo (-s) s, ENNReal.ofReal (1 / Real.sqrt (s ^ 2 - y ^ 2)) *
        G y (Real.sqrt (s ^ 2 - y ^ 2)) := by
  have h := lintegral_image_eq_lintegral_abs_deriv_mul (s := Ioo (0 : ℝ) Real.pi)
    (f := fun φ => s * Real.cos φ) (f' := fun φ => s * -Real.sin φ) measurableSet_Ioo
    (fun x _ => ((Real.hasDerivAt_cos x).const_mul s).hasDerivWithinAt)
    (fun a ha b hb hab => Real.injOn_cos (Ioo_subset_Icc_self ha) (Ioo_subset_Icc_self hb)
      (mul_left_cancel₀ hs.ne' hab))
    (fun y => ENNReal.ofReal (1 / Real.sqrt (s ^ 2 - y ^ 2)) * G y (Real.sqrt (s ^ 2 - y ^ 2)))
  have hi : (fun φ => s * Real.cos φ) '' Ioo (0 : ℝ) Real.pi = Ioo (-s) s := by
    ext v
    simp only [mem_image, mem_Ioo]
    constructor
    · rintro ⟨x, ⟨h1, h2⟩, rfl⟩
      have c1 : Real.cos x < 1 := by
        rw [← Real.cos_zero]; exact Real.cos_lt_cos_of_nonneg_of_le_pi le_rfl h2.le h1
      have c2 : -1 < Real.cos x := by
        rw [← Real.cos_pi]; exact Real.cos_lt_cos_of_nonneg_of_le_pi h1.le le_rfl h2
      constructor <;> nlinarith
    · rintro ⟨h1, h2⟩
      have d1 : -1 < v / s := by rw [lt_div_iff₀ hs]; linarith
      have d2 : v / s < 1 := by rw [div_lt_iff₀ hs]; linarith
      refine ⟨Real.arccos (v / s), ⟨Real.arccos_pos.2 d2, Real.arccos_lt_pi.2 d1⟩, ?_⟩
      rw [Real.cos_arccos d1.le d2.le]
      field_simp
  rw [hi] at h
  rw [h]
  refine setLIntegral_congr_fun measurableSet_Ioo fun φ hφ => ?_
  have hsin : 0 < Real.sin φ := Real.sin_pos_of_pos_of_lt_pi hφ.1 hφ.2
  have e : s ^ 2 - (s * Real.cos φ) ^ 2 = (s * Real.sin φ) ^ 2 := by
    rw [mul_pow, mul_pow, Real.sin_sq]; ring
  have hp : 0 < s * Real.sin φ := mul_pos hs hsin
  rw [e, Real.sqrt_sq hp.le, abs_of_neg (by linarith), ← mul_assoc, ← ENNReal.ofReal_mul (by linarith)]
  have : -(s * -Real.sin φ) * (1 / (s * Real.sin φ)) = 1 := by
    field_simp
  rw [this, ENNReal.ofReal_one, one_mul]

/-- The circle, with its projection on a diameter as the variable. -/
theorem lintegral_circle {s : ℝ} (hs : 0 < s) {G : ℝ → ℝ → ℝ≥0∞}
    (hG : Measurable (Function.uncurry G)) :
    ∫⁻ φ in Ioo 0 (2 * Real.pi), G (s * Real.cos φ) (s * Real.sin φ) =
      ∫⁻ y in Ioo (-s) s, ENNReal.ofReal (1 / Real.sqrt (s ^ 2 - y ^ 2)) *
        (G y (Real.sqrt (s ^ 2 - y ^ 2)) + G y (-Real.sqrt (s ^ 2 - y ^ 2))) := by
  have hpi := Real.pi_pos
  have hsplit : ∫⁻ φ in Ioo 0 (2 * Real.pi), G (s * Real.cos φ) (s * Real.sin φ) =
      (∫⁻ φ in Ioo 0 Real.pi, G (s * Real.cos φ) (s * Real.sin φ)) +
      ∫⁻ φ in Ioo Real.pi (2 * Real.pi), G (s * Real.cos φ) (s * Real.sin φ) := by
    simp only [restrict_Ioo_eq_restrict_Ioc]
    rw [← Ioc_union_Ioc_eq_Ioc hpi.le (by linarith : Real.pi ≤ 2 * Real.pi),
      lintegral_union measurableSet_Ioc (Ioc_disjoint_Ioc_of_le le_rfl)]
  have hback : ∫⁻ φ in Ioo Real.pi (2 * Real.pi), G (s * Real.cos φ) (s * Real.sin φ) =
      ∫⁻ φ in Ioo 0 Real.pi, G (s * Real.cos φ) (-(s * Real.sin φ)) := by
    have h := lintegral_image_eq_lintegral_abs_deriv_mul (s := Ioo (0 : ℝ) Real.pi)
      (f := fun φ => 2 * Real.pi - φ) (f' := fun _ => -1) measurableSet_Ioo
      (fun x _ => by simpa using ((hasDerivAt_id x).const_sub (2 * Real.pi)).hasDerivWithinAt)
      (fun a _ b _ hab => by simpa using hab) (fun φ => G (s * Real.cos φ) (s * Real.sin φ))
    have hi : (fun φ => 2 * Real.pi - φ) '' Ioo (0 : ℝ) Real.pi = Ioo Real.pi (2 * Real.pi) := by
      ext v
      simp only [mem_image, mem_Ioo]
      constructor
      · rintro ⟨x, ⟨h1, h2⟩, rfl⟩
        constructor <;> linarith
      · rintro ⟨h1, h2⟩
        exact ⟨2 * Real.pi - v, ⟨by linarith, by linarith⟩, by ring⟩
    rw [hi] at h
    rw [h]
    refine setLIntegral_congr_fun measurableSet_Ioo fun φ _ => ?_
    simp [Real.cos_two_pi_sub, Real.sin_two_pi_sub]
  rw [hsplit, hback, lintegral_semicircle hs G, lintegral_semicircle hs (fun y z => G y (-z)),
    ← lintegral_add_left]
  · simp_rw [mul_add]
  · have : Measurable fun y : ℝ => Function.uncurry G (y, Real.sqrt (s ^ 2 - y ^ 2)) :=
      hG.comp (by fun_prop)
    exact Measurable.mul (by fun_prop) this

/-- The integral over the unit sphere, with the first coordinate and the angle about the first axis
as the variables. -/
noncomputable def sphere (F : ℝ → ℝ → ℝ → ℝ≥0∞) : ℝ≥0∞ :=
  ∫⁻ x in Ioo (-1 : ℝ) 1, ∫⁻ φ in Ioo 0 (2 * Real.pi),
    F x (Real.sqrt (1 - x * x) * Real.cos φ) (Real.sqrt (1 - x * x) * Real.sin φ)

/-- The height of the sphere above a point of the disk. -/
noncomputable def height (x y : ℝ) : ℝ := Real.sqrt (1 - x ^ 2 - y ^ 2)

/-- What the two points of the sphere above and below a point of the disk contribute. -/
noncomputable def overDisk (F : ℝ → ℝ → ℝ → ℝ≥0∞) (p : ℝ × ℝ) : ℝ≥0∞ :=
  {p : ℝ × ℝ | p.1 ^ 2 + p.2 ^ 2 < 1}.indicator (fun p => ENNReal.ofReal (1 / height p.1 p.2) *
    (F p.1 p.2 (height p.1 p.2) + F p.1 p.2 (-height p.1 p.2))) p

/-- A function of three real numbers that is measurable. -/
def Measurable₃ (F : ℝ → ℝ → ℝ → ℝ≥0∞) : Prop :=
  Measurable fun p : ℝ × ℝ × ℝ => F p.1 p.2.1 p.2.2

theorem measurable_overDisk {F : ℝ → ℝ → ℝ → ℝ≥0∞} (hF : Measurable₃ F) :
    Measurable (overDisk F) := by
  unfold overDisk height
  refine Measurable.indicator ?_ (measurableSet_lt (by fun_prop) measurable_const)
  have h1 : Measurable fun p : ℝ × ℝ => F p.1 p.2 (Real.sqrt (1 - p.1 ^ 2 - p.2 ^ 2)) :=
    hF.comp (g := fun p : ℝ × ℝ × ℝ => F p.1 p.2.1 p.2.2)
      (f := fun p : ℝ × ℝ => (p.1, p.2, Real.sqrt (1 - p.1 ^ 2 - p.2 ^ 2))) (by fun_prop)
  have h2 : Measurable fun p : ℝ × ℝ => F p.1 p.2 (-Real.sqrt (1 - p.1 ^ 2 - p.2 ^ 2)) :=
    hF.comp (g := fun p : ℝ × ℝ × ℝ => F p.1 p.2.1 p.2.2)
      (f := fun p : ℝ × ℝ => (p.1, p.2, -Real.sqrt (1 - p.1 ^ 2 - p.2 ^ 2))) (by fun_prop)
  exact Measurable.mul (by fun_prop) (h1.add h2)

/-- The sphere projected on the disk. -/
theorem sphere_eq_disk {F : ℝ → ℝ → ℝ → ℝ≥0∞} (hF : Measurable₃ F) :
    sphere F = ∫⁻ p, overDisk F p := by
  rw [Measure.volume_eq_prod, lintegral_prod _ (measurable_overDisk hF).aemeasurable]
  unfold sphere
  rw [← lintegral_indicator measurableSet_Ioo]
  refine lintegral_congr fun x => ?_
  by_cases hx : x ∈ Ioo (-1 : ℝ) 1
  · rw [indicator_of_mem hx]
    have hpos : 0 < 1 - x * x := by nlinarith [hx.1, hx.2]
    have hs := Real.sqrt_pos.2 hpos
    have hsq : Real.sqrt (1 - x * x) ^ 2 = 1 - x ^ 2 := by rw [Real.sq_sqrt hpos.le]; ring
    rw [lintegral_circle hs (G := F x) (hF.comp (g := fun p : ℝ × ℝ × ℝ => F p.1 p.2.1 p.2.2)
      (f := fun p : ℝ × ℝ => (x, p.1, p.2)) (by fun_prop)), ← lintegral_indicator measurableSet_Ioo]
    refine lintegral_congr fun y => ?_
    have hmem : y ∈ Ioo (-Real.sqrt (1 - x * x)) (Real.sqrt (1 - x * x)) ↔ x ^ 2 + y ^ 2 < 1 := by
      rw [mem_Ioo, ← abs_lt, ← sq_lt_sq₀ (abs_nonneg y) hs.le, sq_abs, hsq]
      constructor <;> intro h <;> linarith
    unfold overDisk
    by_cases hy : x ^ 2 + y ^ 2 < 1
    · rw [indicator_of_mem (hmem.2 hy), indicator_of_mem (by exact hy)]
      simp only [height, hsq]
    · rw [indicator_of_notMem (fun h => hy (hmem.1 h)), indicator_of_notMem (by exact hy)]
  · rw [indicator_of_notMem hx]
    symm
    rw [lintegral_eq_zero_iff' (by
      have := measurable_overDisk hF
      exact (this.comp measurable_prodMk_left).aemeasurable)]
    refine Filter.Eventually.of_forall fun y => ?_
    unfold overDisk
    refine indicator_of_notMem (fun h => hx ?_) _
    have h : x ^ 2 + y ^ 2 < 1 := h
    constructor <;> nlinarith [sq_nonneg y]

/-- The plane turned about its origin. -/
theorem lintegral_plane_turned (a : ℝ) {g : ℝ × ℝ → ℝ≥0∞} (hg : Measurable g) :
    ∫⁻ p : ℝ × ℝ, g (p.1 * Real.cos a - p.2 * Real.sin a, p.2 * Real.cos a + p.1 * Real.sin a) =
      ∫⁻ p, g p := by
  have h1 := (Complex.volume_preserving_equiv_real_prod).lintegral_comp hg
  have h2 := (Complex.volume_preserving_equiv_real_prod).lintegral_comp
    (f := fun p : ℝ × ℝ => g (p.1 * Real.cos a - p.2 * Real.sin a,
      p.2 * Real.cos a + p.1 * Real.sin a)) (hg.comp (by fun_prop))
  rw [← h1, ← h2]
  have h3 := (rotation (Circle.exp a)).measurePreserving.lintegral_comp
    (f := fun z => g (Complex.measurableEquivRealProd z))
    (hg.comp Complex.measurableEquivRealProd.measurable)
  rw [← h3]
  refine lintegral_congr fun z => ?_
  congr 1
  simp [Complex.measurableEquivRealProd, rotation_apply, Circle.coe_exp, Complex.exp_re,
    Complex.exp_im]
  constructor <;> ring

theorem sphere_turned_z (a : ℝ) {F : ℝ → ℝ → ℝ → ℝ≥0∞} (hF : Measurable₃ F) :
    sphere (fun x y z => F (x * Real.cos a - y * Real.sin a) (y * Real.cos a + x * Real.sin a) z) =
      sphere F := by
  have hF' : Measurable₃ fun x y z =>
      F (x * Real.cos a - y * Real.sin a) (y * Real.cos a + x * Real.sin a) z :=
    hF.comp (g := fun p : ℝ × ℝ × ℝ => F p.1 p.2.1 p.2.2)
      (f := fun p : ℝ × ℝ × ℝ => (p.1 * Real.cos a - p.2.1 * Real.sin a,
        p.2.1 * Real.cos a + p.1 * Real.sin a, p.2.2)) (by fun_prop)
  rw [sphere_eq_disk hF, sphere_eq_disk hF', ← lintegral_plane_turned a (measurable_overDisk hF)]
  refine lintegral_congr fun p => ?_
  have e : (p.1 * Real.cos a - p.2 * Real.sin a) ^ 2 + (p.2 * Real.cos a + p.1 * Real.sin a) ^ 2 =
      p.1 ^ 2 + p.2 ^ 2 := by
    linear_combination (p.1 ^ 2 + p.2 ^ 2) * Real.cos_sq_add_sin_sq a
  have eh : height (p.1 * Real.cos a - p.2 * Real.sin a) (p.2 * Real.cos a + p.1 * Real.sin a) =
      height p.1 p.2 := by
    unfold height
    congr 1
    linarith
  unfold overDisk
  by_cases hp : p.1 ^ 2 + p.2 ^ 2 < 1
  · rw [indicator_of_mem (by exact hp), indicator_of_mem (by rw [mem_ofPred_eq, e]; exact hp)]
    simp only [eh]
  · rw [indicator_of_notMem (by exact hp), indicator_of_notMem (by rw [mem_ofPred_eq, e]; exact hp)]

theorem lintegral_periodic {h : ℝ → ℝ≥0∞} (hp : ∀ φ, h (φ + 2 * Real.pi) = h φ) (a : ℝ) :
    ∫⁻ φ in Ioo 0 (2 * Real.pi), h (φ + a) = ∫⁻ φ in Ioo 0 (2 * Real.pi), h φ := by
  have hpi : 0 < 2 * Real.pi := by positivity
  have h1 : ∫⁻ φ in Ioo 0 (2 * Real.pi), h (φ + a) =
      ∫⁻ φ in Ioc a (a + 2 * Real.pi), h φ := by
    rw [← restrict_Ioo_eq_restrict_Ioc, ← lintegral_indicator measurableSet_Ioo,
      ← lintegral_indicator measurableSet_Ioo,
      ← lintegral_add_right_eq_self ((Ioo a (a + 2 * Real.pi)).indicator h) a]
    refine lintegral_congr fun φ => ?_
    simp only [indicator, mem_Ioo]
    congr 1
    rw [eq_iff_iff]
    constructor <;> rintro ⟨h1, h2⟩ <;> constructor <;> linarith
  rw [h1, restrict_Ioo_eq_restrict_Ioc]
  have hd := isAddFundamentalDomain_Ioc hpi a
  have hd0 := isAddFundamentalDomain_Ioc hpi 0
  rw [zero_add] at hd0
  refine IsAddFundamentalDomain.setLIntegral_eq hd hd0 h ?_
  rintro ⟨g, hg⟩ x
  obtain ⟨n, rfl⟩ := AddSubgroup.mem_zmultiples_iff.1 hg
  have hper : Function.Periodic h (2 * Real.pi) := hp
  have := hper.zsmul n x
  rw [← this]
  congr 1
  change n • (2 * Real.pi) + x = _
  rw [add_comm]

theorem sphere_turned_x (a : ℝ) (F : ℝ → ℝ → ℝ → ℝ≥0∞) :
    sphere (fun x y z => F x (y * Real.cos a - z * Real.sin a) (z * Real.cos a + y * Real.sin a)) =
      sphere F := by
  unfold sphere
  refine setLIntegral_congr_fun measurableSet_Ioo fun x _ => ?_
  set s := Real.sqrt (1 - x * x)
  have h := lintegral_periodic (h := fun φ => F x (s * Real.cos φ) (s * Real.sin φ))
    (fun φ => by simp) a
  simp only
  rw [← h]
  refine lintegral_congr fun φ => ?_
  congr 1
  · rw [Real.cos_add]; ring
  · rw [Real.sin_add]; ring

/-! ### Rotations about any axis -/

/-- The integral of a function of points over the unit sphere. -/
noncomputable def spherePoints (F : Point → ℝ≥0∞) : ℝ≥0∞ := sphere fun x y z => F ⟨x, y, z⟩

/-- A function of points that is measurable. -/
def MeasurableAt (F : Point → ℝ≥0∞) : Prop := Measurable fun p : ℝ × ℝ × ℝ => F ⟨p.1, p.2.1, p.2.2⟩

theorem MeasurableAt.turned {F : Point → ℝ≥0∞} (hF : MeasurableAt F) (d : Point) (a : ℝ) :
    MeasurableAt fun x => F (turned d a x) := by
  unfold MeasurableAt Spec.turned cosAngle
  exact hF.comp (g := fun p : ℝ × ℝ × ℝ => F ⟨p.1, p.2.1, p.2.2⟩) (f := fun p : ℝ × ℝ × ℝ =>
    (p.1 * Real.cos a + (d.y * p.2.2 - d.z * p.2.1) * Real.sin a +
      d.x * ((d.x * p.1 + d.y * p.2.1 + d.z * p.2.2) * (1 - Real.cos a)),
     p.2.1 * Real.cos a + (d.z * p.1 - d.x * p.2.2) * Real.sin a +
      d.y * ((d.x * p.1 + d.y * p.2.1 + d.z * p.2.2) * (1 - Real.cos a)),
     p.2.2 * Real.cos a + (d.x * p.2.1 - d.y * p.1) * Real.sin a +
      d.z * ((d.x * p.1 + d.y * p.2.1 + d.z * p.2.2) * (1 - Real.cos a)))) (by fun_prop)

theorem turned_x (a : ℝ) (v : Point) : turned ⟨1, 0, 0⟩ a v =
    ⟨v.x, v.y * Real.cos a - v.z * Real.sin a, v.z * Real.cos a + v.y * Real.sin a⟩ := by
  unfold turned cosAngle
  ext <;> simp <;> ring

theorem turned_z (a : ℝ) (v : Point) : turned ⟨0, 0, 1⟩ a v =
    ⟨v.x * Real.cos a - v.y * Real.sin a, v.y * Real.cos a + v.x * Real.sin a, v.z⟩ := by
  unfold turned cosAngle
  ext <;> simp <;> ring

/-- Turning about the axis does not change integrals over the sphere. -/
def TurnsEvenly (d : Point) : Prop :=
  ∀ (a : ℝ) (F : Point → ℝ≥0∞), MeasurableAt F →
    spherePoints (fun x => F (turned d a x)) = spherePoints F

theorem turnsEvenly_x : TurnsEvenly ⟨1, 0, 0⟩ := by
  intro a F _
  unfold spherePoints
  simp only [turned_x]
  exact sphere_turned_x a fun x y z => F ⟨x, y, z⟩

theorem turnsEvenly_z : TurnsEvenly ⟨0, 0, 1⟩ := by
  intro a F hF
  unfold spherePoints
  simp only [turned_z]
  exact sphere_turned_z a (F := fun x y z => F ⟨x, y, z⟩) hF

theorem turned_turned_x (a b : ℝ) (d v : Point) :
    turned (turned ⟨1, 0, 0⟩ b d) a (turned ⟨1, 0, 0⟩ b v) = turned ⟨1, 0, 0⟩ b (turned d a v) := by
  rw [turned_x, turned_x, turned_x]
  have h := Real.cos_sq_add_sin_sq b
  unfold turned cosAngle
  generalize Real.cos b = C at *
  generalize Real.sin b = S at *
  generalize Real.cos a = c
  generalize Real.sin a = s
  ext
  · simp only
    linear_combination ((d.y * v.z - d.z * v.y) * s +
      d.x * ((d.y * v.y + d.z * v.z) * (1 - c))) * h
  · simp only
    linear_combination ((d.y * C - d.z * S) * ((d.y * v.y + d.z * v.z) * (1 - c))) * h
  · simp only
    linear_combination ((d.z * C + d.y * S) * ((d.y * v.y + d.z * v.z) * (1 - c))) * h

theorem turned_turned_z (a b : ℝ) (d v : Point) :
    turned (turned ⟨0, 0, 1⟩ b d) a (turned ⟨0, 0, 1⟩ b v) = turned ⟨0, 0, 1⟩ b (turned d a v) := by
  rw [turned_z, turned_z, turned_z]
  have h := Real.cos_sq_add_sin_sq b
  unfold turned cosAngle
  generalize Real.cos b = C at *
  generalize Real.sin b = S at *
  generalize Real.cos a = c
  generalize Real.sin a = s
  ext
  · simp only
    linear_combination ((d.x * C - d.y * S) * ((d.x * v.x + d.y * v.y) * (1 - c))) * h
  · simp only
    linear_combination ((d.y * C + d.x * S) * ((d.x * v.x + d.y * v.y) * (1 - c))) * h
  · simp only
    linear_combination ((d.x * v.y - d.y * v.x) * s +
      d.z * ((d.x * v.x + d.y * v.y) * (1 - c))) * h

theorem turned_back_x (b : ℝ) (v : Point) : turned ⟨1, 0, 0⟩ b (turned ⟨1, 0, 0⟩ (-b) v) = v := by
  rw [turned_x, turned_x, Real.cos_neg, Real.sin_neg]
  have h := Real.cos_sq_add_sin_sq b
  ext
  · rfl
  · simp only
    linear_combination v.y * h
  · simp only
    linear_combination v.z * h

theorem turned_back_z (b : ℝ) (v : Point) : turned ⟨0, 0, 1⟩ b (turned ⟨0, 0, 1⟩ (-b) v) = v := by
  rw [turned_z, turned_z, Real.cos_neg, Real.sin_neg]
  have h := Real.cos_sq_add_sin_sq b
  ext
  · simp only
    linear_combination v.x * h
  · simp only
    linear_combination v.y * h
  · rfl

theorem TurnsEvenly.turn {k d : Point} (hk : TurnsEvenly k) (hd : TurnsEvenly d) (b : ℝ)
    (h1 : ∀ a v, turned (turned k b d) a (turned k b v) = turned k b (turned d a v))
    (h2 : ∀ v, turned k b (turned k (-b) v) = v) : TurnsEvenly (turned k b d) := by
  intro a F hF
  have e : (fun x => F (turned (turned k b d) a x)) =
      fun x => (fun y => F (turned k b (turned d a y))) (turned k (-b) x) := by
    funext x
    simp only
    rw [← h1, h2]
  have hG := hF.turned k b
  rw [e, hk (-b) _ (hG.turned d a), hd a (fun y => F (turned k b y)) hG, hk b F hF]

/-- Every axis is that of an angle about the first axis and one about the third. -/
theorem exists_turns {w : Point} (hw : UnitVec w) :
    ∃ a b, turned ⟨1, 0, 0⟩ b (turned ⟨0, 0, 1⟩ a ⟨1, 0, 0⟩) = w := by
  unfold UnitVec at hw
  have hx1 : -1 ≤ w.x := by nlinarith [sq_nonneg w.y, sq_nonneg w.z]
  have hx2 : w.x ≤ 1 := by nlinarith [sq_nonneg w.y, sq_nonneg w.z]
  refine ⟨Real.arccos w.x, (⟨w.y, w.z⟩ : ℂ).arg, ?_⟩
  have hn : ‖(⟨w.y, w.z⟩ : ℂ)‖ = Real.sqrt (1 - w.x ^ 2) := by
    rw [Complex.norm_def]
    congr 1
    simp only [Complex.normSq_mk]
    linarith
  have hc := Complex.norm_mul_cos_arg (⟨w.y, w.z⟩ : ℂ)
  have hs := Complex.norm_mul_sin_arg (⟨w.y, w.z⟩ : ℂ)
  rw [hn] at hc hs
  rw [turned_x, turned_z]
  ext
  · simp [Real.cos_arccos hx1 hx2]
  · simp [Real.sin_arccos]
    exact hc
  · simp [Real.sin_arccos]
    exact hs

theorem turnsEvenly {w : Point} (hw : UnitVec w) : TurnsEvenly w := by
  obtain ⟨a, b, rfl⟩ := exists_turns hw
  exact turnsEvenly_x.turn (turnsEvenly_z.turn turnsEvenly_x a
    (fun c v => turned_turned_z c a _ v) (turned_back_z a)) b
    (fun c v => turned_turned_x c b _ v) (turned_back_x b)

end Minimc.Spec
