import Verif.Lemmas.WalkMean
import Verif.Spec.Experiment

/-! # Integrals over space

The volume of space, spherical coordinates, and what translations and rotations do. -/

namespace Minimc

open Classical MeasureTheory Spec Set
open scoped ENNReal

variable {α : Type*} [MeasurableSpace α]

/-- Volume of regions of space. -/
noncomputable def spaceVolume : Measure Point :=
  (volume : Measure (ℝ × ℝ × ℝ)).map fun p => ⟨p.1, p.2.1, p.2.2⟩

/-- Directions that are uniform on the sphere. -/
noncomputable def sphereLaw : Measure Direction :=
  (uniform.prod uniform).map fun p => directionFrom p.1 p.2

theorem measurable_triple : Measurable fun p : ℝ × ℝ × ℝ => (⟨p.1, p.2.1, p.2.2⟩ : Point) :=
  measurable_point (by fun_prop) (by fun_prop) (by fun_prop)

theorem measurable_directionPair : Measurable fun p : ℝ × ℝ => directionFrom p.1 p.2 :=
  measurable_directionFrom measurable_fst measurable_snd

instance : SFinite spaceVolume := by unfold spaceVolume; infer_instance

instance : IsProbabilityMeasure sphereLaw := by
  unfold sphereLaw
  exact Measure.isProbabilityMeasure_map measurable_directionPair.aemeasurable

theorem lintegral_spaceVolume {F : Point → ℝ≥0∞} (hF : Measurable F) :
    ∫⁻ x, F x ∂spaceVolume = ∫⁻ p : ℝ × ℝ × ℝ, F ⟨p.1, p.2.1, p.2.2⟩ :=
  lintegral_map hF measurable_triple

theorem lintegral_sphereLaw {F : Direction → ℝ≥0∞} (hF : Measurable F) :
    ∫⁻ d, F d ∂sphereLaw = sphereMean F := by
  unfold sphereLaw
  rw [lintegral_map hF measurable_directionPair,
    lintegral_prod (fun p : ℝ × ℝ => F (directionFrom p.1 p.2))
      (hF.comp measurable_directionPair).aemeasurable]
  have h := lintegral_directionFrom (F := fun d _ => F d) (hF.comp measurable_fst)
  simp only [lintegral_const, measure_univ, mul_one] at h
  rw [← h, lintegral_first (F := fun u us => F (directionFrom u (us 0)))]
  · refine lintegral_congr fun u => ?_
    rw [lintegral_first (F := fun v _ => F (directionFrom u v))]
    · simp
    · exact hF.comp (measurable_directionFrom measurable_const measurable_fst)
  · exact hF.comp (measurable_directionFrom measurable_fst (measurable_at measurable_snd 0))

theorem sphereMean_eq_uniform {F : Direction → ℝ≥0∞} (hF : Measurable F) :
    sphereMean F = ∫⁻ u, ∫⁻ v, F (directionFrom u v) ∂uniform ∂uniform := by
  rw [← lintegral_sphereLaw hF]
  unfold sphereLaw
  rw [lintegral_map hF measurable_directionPair,
    lintegral_prod (fun p : ℝ × ℝ => F (directionFrom p.1 p.2))
      (hF.comp measurable_directionPair).aemeasurable]

/-! ### Operations on points are measurable -/

theorem _root_.Measurable.point_add' {f g : α → Point} (hf : Measurable f) (hg : Measurable g) :
    Measurable fun a => f a + g a := by
  refine measurable_point ?_ ?_ ?_
  · exact hf.point_x.add hg.point_x
  · exact hf.point_y.add hg.point_y
  · exact hf.point_z.add hg.point_z

theorem _root_.Measurable.point_sub' {f g : α → Point} (hf : Measurable f) (hg : Measurable g) :
    Measurable fun a => f a - g a := by
  refine measurable_point ?_ ?_ ?_
  · exact hf.point_x.sub hg.point_x
  · exact hf.point_y.sub hg.point_y
  · exact hf.point_z.sub hg.point_z

theorem _root_.Measurable.point_smul {f : α → Point} {s : α → ℝ} (hf : Measurable f)
    (hs : Measurable s) : Measurable fun a => (f a).smul (s a) := by
  refine measurable_point ?_ ?_ ?_
  · exact hf.point_x.mul hs
  · exact hf.point_y.mul hs
  · exact hf.point_z.mul hs

/-! ### Translations -/

theorem lintegral_translate {F : Point → ℝ≥0∞} (hF : Measurable F) (c : Point) :
    ∫⁻ x, F (x + c) ∂spaceVolume = ∫⁻ x, F x ∂spaceVolume := by
  rw [lintegral_spaceVolume hF, lintegral_spaceVolume (F := fun x => F (x + c))
    (hF.comp (Measurable.point_add' measurable_id measurable_const))]
  have : (volume : Measure (ℝ × ℝ × ℝ)).IsAddRightInvariant := by
    rw [Measure.volume_eq_prod, Measure.volume_eq_prod]
    have h2 : ((volume : Measure ℝ).prod (volume : Measure ℝ)).IsAddRightInvariant :=
      Measure.prod.instIsAddRightInvariant
    exact Measure.prod.instIsAddRightInvariant
  rw [← lintegral_add_right_eq_self (fun p : ℝ × ℝ × ℝ => F ⟨p.1, p.2.1, p.2.2⟩) (c.x, c.y, c.z)]
  rfl

/-! ### Spherical coordinates -/

/-- Polar coordinates in the upper half of the plane. -/
theorem lintegral_halfplane {f : ℝ → ℝ → ℝ≥0∞} (hf : Measurable (Function.uncurry f)) :
    ∫⁻ a, ∫⁻ b in Ioi (0 : ℝ), f a b = ∫⁻ r in Ioi (0 : ℝ), ∫⁻ θ in Ioo 0 Real.pi,
        ENNReal.ofReal r * f (r * Real.cos θ) (r * Real.sin θ) := by
  have hq : MeasurableSet (univ ×ˢ Ioi (0 : ℝ) : Set (ℝ × ℝ)) := MeasurableSet.univ.prod measurableSet_Ioi
  have h := lintegral_comp_polarCoord_symm
    ((univ ×ˢ Ioi (0 : ℝ)).indicator (Function.uncurry f))
  rw [lintegral_indicator hq, Measure.volume_eq_prod,
    setLIntegral_prod _ hf.aemeasurable, Measure.restrict_univ] at h
  refine h.symm.trans ?_
  have e : ∀ p ∈ polarCoord.target, ENNReal.ofReal p.1 •
      (univ ×ˢ Ioi (0 : ℝ)).indicator (Function.uncurry f) (polarCoord.symm p) =
      (Ioi (0 : ℝ) ×ˢ Ioo 0 Real.pi).indicator (fun p => ENNReal.ofReal p.1 *
        f (p.1 * Real.cos p.2) (p.1 * Real.sin p.2)) p := by
    rintro ⟨ρ, θ⟩ ⟨hρ, hθ⟩
    have hρ : 0 < ρ := hρ
    have hθ : θ ∈ Ioo (-Real.pi) Real.pi := hθ
    rw [smul_eq_mul]
    by_cases hm : θ ∈ Ioo 0 Real.pi
    · rw [indicator_of_mem, indicator_of_mem]
      · rfl
      · exact ⟨hρ, hm⟩
      · exact ⟨mem_univ _, mul_pos hρ (Real.sin_pos_of_pos_of_lt_pi hm.1 hθ.2)⟩
    · rw [indicator_of_notMem, indicator_of_notMem, mul_zero]
      · exact fun h => hm h.2
      · rintro ⟨-, h2⟩
        have h2 : 0 < ρ * Real.sin θ := h2
        have h2 := pos_of_mul_pos_right h2 hρ.le
        refine hm ⟨?_, hθ.2⟩
        by_contra hn
        have := Real.sin_nonpos_of_nonpos_of_neg_pi_le (not_lt.1 hn) hθ.1.le
        linarith
  rw [setLIntegral_congr_fun (by exact measurableSet_Ioi.prod measurableSet_Ioo) e]
  have hq' : MeasurableSet (Ioi (0 : ℝ) ×ˢ Ioo 0 Real.pi) :=
    measurableSet_Ioi.prod measurableSet_Ioo
  rw [lintegral_indicator hq', Measure.restrict_restrict hq']
  have hi : (Ioi (0 : ℝ) ×ˢ Ioo 0 Real.pi) ∩ polarCoord.target = Ioi (0 : ℝ) ×ˢ Ioo 0 Real.pi := by
    rw [inter_eq_left]
    rintro ⟨ρ, θ⟩ ⟨h1, h2⟩
    have h2 : θ ∈ Ioo 0 Real.pi := h2
    exact ⟨h1, by constructor <;> linarith [h2.1, h2.2, Real.pi_pos]⟩
  rw [hi, setLIntegral_prod]
  have : Measurable fun p : ℝ × ℝ => Function.uncurry f (p.1 * Real.cos p.2, p.1 * Real.sin p.2) :=
    hf.comp (by fun_prop)
  exact (Measurable.mul (by fun_prop) this).aemeasurable

/-- Polar coordinates in the plane. -/
theorem lintegral_plane {f : ℝ × ℝ → ℝ≥0∞} (hf : Measurable f) :
    ∫⁻ p, f p = ∫⁻ r in Ioi (0 : ℝ), ENNReal.ofReal r *
      ∫⁻ φ in Ioo 0 (2 * Real.pi), f (r * Real.cos φ, r * Real.sin φ) := by
  have hpi := Real.pi_pos
  rw [← lintegral_comp_polarCoord_symm]
  have ht : polarCoord.target = Ioi (0 : ℝ) ×ˢ Ioo (-Real.pi) Real.pi := rfl
  rw [ht, Measure.volume_eq_prod, setLIntegral_prod]
  · refine setLIntegral_congr_fun measurableSet_Ioi fun r _ => ?_
    simp only [smul_eq_mul]
    rw [lintegral_const_mul' _ _ ENNReal.ofReal_ne_top]
    congr 1
    have h := lintegral_periodic (h := fun φ => f (r * Real.cos φ, r * Real.sin φ))
      (fun φ => by simp) (-Real.pi)
    rw [← h, ← lintegral_indicator measurableSet_Ioo, ← lintegral_indicator measurableSet_Ioo,
      ← lintegral_add_right_eq_self ((Ioo (-Real.pi) Real.pi).indicator _) (-Real.pi)]
    refine lintegral_congr fun φ => ?_
    simp only [indicator, mem_Ioo]
    refine if_congr ?_ rfl rfl
    constructor <;> rintro ⟨h1, h2⟩ <;> constructor <;> linarith
  · have : Measurable fun p : ℝ × ℝ => f (p.1 * Real.cos p.2, p.1 * Real.sin p.2) :=
      hf.comp (by fun_prop)
    simp only [smul_eq_mul]
    exact (Measurable.mul (by fun_prop) this).aemeasurable

/-- Spherical coordinates. -/
theorem lintegral_space {F : Point → ℝ≥0∞} (hF : Measurable F) :
    ∫⁻ x, F x ∂spaceVolume = ENNReal.ofReal (4 * Real.pi) *
      ∫⁻ r in Ioi (0 : ℝ), ENNReal.ofReal (r ^ 2) * sphereMean fun d => F (d.smul r) := by
  have hpi := Real.pi_pos
  have hF3 : Measurable fun p : ℝ × ℝ × ℝ => F ⟨p.1, p.2.1, p.2.2⟩ := hF.comp measurable_triple
  rw [lintegral_spaceVolume hF, Measure.volume_eq_prod, lintegral_prod _ hF3.aemeasurable]
  have h1 : ∀ x : ℝ, ∫⁻ q : ℝ × ℝ, F ⟨x, q.1, q.2⟩ = ∫⁻ s in Ioi (0 : ℝ), ENNReal.ofReal s *
      ∫⁻ φ in Ioo 0 (2 * Real.pi), F ⟨x, s * Real.cos φ, s * Real.sin φ⟩ := fun x =>
    lintegral_plane (hF3.comp (by fun_prop : Measurable fun q : ℝ × ℝ => (x, q)))
  simp only [h1]
  set K : ℝ → ℝ → ℝ≥0∞ := fun x s =>
    ∫⁻ φ in Ioo 0 (2 * Real.pi), F ⟨x, s * Real.cos φ, s * Real.sin φ⟩ with hK
  have hKm : Measurable (Function.uncurry K) := by
    refine Measurable.lintegral_prod_right' (f := fun p : (ℝ × ℝ) × ℝ =>
      F ⟨p.1.1, p.1.2 * Real.cos p.2, p.1.2 * Real.sin p.2⟩) ?_
    exact hF.comp (measurable_point (by fun_prop) (by fun_prop) (by fun_prop))
  rw [lintegral_halfplane (f := fun x s => ENNReal.ofReal s * K x s)
    (Measurable.mul (by fun_prop) hKm), ← lintegral_const_mul' _ _ ENNReal.ofReal_ne_top]
  refine setLIntegral_congr_fun measurableSet_Ioi fun r hr => ?_
  have hr : 0 < r := hr
  rw [lintegral_const_mul' _ _ ENNReal.ofReal_ne_top]
  have h2 := lintegral_semicircle one_pos fun y w => ENNReal.ofReal (r * w) * K (r * y) (r * w)
  simp only [one_mul, one_pow] at h2
  rw [h2]
  unfold sphereMean
  rw [← mul_assoc, ← mul_assoc, ← ENNReal.ofReal_mul (by positivity),
    ← ENNReal.ofReal_mul (by positivity), ← lintegral_const_mul' _ _ ENNReal.ofReal_ne_top,
    ← lintegral_const_mul' _ _ ENNReal.ofReal_ne_top]
  refine setLIntegral_congr_fun measurableSet_Ioo fun z hz => ?_
  have hz2 : 0 < 1 - z ^ 2 := by nlinarith [hz.1, hz.2]
  have hs := Real.sqrt_pos.2 hz2
  simp only
  rw [← mul_assoc, ← mul_assoc, ← ENNReal.ofReal_mul hr.le, ← ENNReal.ofReal_mul (by positivity)]
  congr 1
  · congr 1
    field_simp
  · refine lintegral_congr fun φ => ?_
    congr 1
    unfold Point.smul
    ext <;> simp only <;> ring

/-! ### Rotations -/

theorem sphereMean_eq_spherePoints (F : Direction → ℝ≥0∞) :
    sphereMean F = ENNReal.ofReal (1 / (4 * Real.pi)) * spherePoints F := by
  unfold sphereMean spherePoints sphere
  simp only [sq]

theorem sphereMean_turned {w : Point} (hw : UnitVec w) (a : ℝ) {F : Direction → ℝ≥0∞}
    (hF : Measurable F) : (sphereMean fun d => F (turned w a d)) = sphereMean F := by
  rw [sphereMean_eq_spherePoints, sphereMean_eq_spherePoints, turnsEvenly hw a F (measurableAt_of hF)]

theorem turned_smul (w x : Point) (a r : ℝ) : turned w a (x.smul r) = (turned w a x).smul r := by
  unfold turned Point.smul cosAngle
  ext <;> simp only <;> ring

theorem _root_.Measurable.turned {f : α → Point} {a : α → ℝ} (w : Point) (hf : Measurable f)
    (ha : Measurable a) : Measurable fun z => Spec.turned w (a z) (f z) := by
  refine measurable_point ?_ ?_ ?_ <;> (unfold Spec.turned cosAngle; fun_prop)

/-- Space turned about an axis through the origin. -/
theorem lintegral_turned {w : Point} (hw : UnitVec w) (a : ℝ) {F : Point → ℝ≥0∞} (hF : Measurable F) :
    ∫⁻ x, F (turned w a x) ∂spaceVolume = ∫⁻ x, F x ∂spaceVolume := by
  rw [lintegral_space hF, lintegral_space (F := fun x => F (turned w a x))
    (hF.comp (measurable_id.turned w measurable_const))]
  congr 1
  refine lintegral_congr fun r => ?_
  congr 1
  simp only [turned_smul]
  exact sphereMean_turned hw a (F := fun d => F (d.smul r))
    (hF.comp (measurable_id.point_smul measurable_const))

/-- The point with given coordinates in a frame. -/
noncomputable def inFrame (a b d x : Point) : Point :=
  ⟨x.x * d.x + x.y * a.x + x.z * b.x, x.x * d.y + x.y * a.y + x.z * b.y,
    x.x * d.z + x.y * a.z + x.z * b.z⟩

/-- Every frame is the standard one, turned three times. -/
theorem inFrame_eq_turned {a b d : Direction} (hd : UnitVec d) (h : Frame a b d) :
    ∃ t₁ t₂ t₃, ∀ x, inFrame a b d x =
      turned ⟨1, 0, 0⟩ t₃ (turned ⟨0, 0, 1⟩ t₂ (turned ⟨1, 0, 0⟩ t₁ x)) := by
  obtain ⟨t₂, t₃, e⟩ := exists_turns hd
  have e0 : turned ⟨0, 0, 1⟩ (-t₂) (turned ⟨1, 0, 0⟩ (-t₃) a) = ⟨0,
      (turned ⟨0, 0, 1⟩ (-t₂) (turned ⟨1, 0, 0⟩ (-t₃) a)).y,
      (turned ⟨0, 0, 1⟩ (-t₂) (turned ⟨1, 0, 0⟩ (-t₃) a)).z⟩ := by
    have := h.across
    rw [turned_x, turned_z] at e ⊢
    rw [← e] at this
    unfold cosAngle at this
    simp only [Real.cos_neg, Real.sin_neg] at this ⊢
    ext
    · simp only
      linarith
    · rfl
    · rfl
  have ea : turned ⟨1, 0, 0⟩ t₃ (turned ⟨0, 0, 1⟩ t₂
      (turned ⟨0, 0, 1⟩ (-t₂) (turned ⟨1, 0, 0⟩ (-t₃) a))) = a := by
    rw [turned_back_z, turned_back_x]
  generalize hY : (turned ⟨0, 0, 1⟩ (-t₂) (turned ⟨1, 0, 0⟩ (-t₃) a)).y = Y at e0
  generalize hZ : (turned ⟨0, 0, 1⟩ (-t₂) (turned ⟨1, 0, 0⟩ (-t₃) a)).z = Z at e0
  rw [e0] at ea
  clear hY hZ e0
  have c2 := Real.cos_sq_add_sin_sq t₂
  have c3 := Real.cos_sq_add_sin_sq t₃
  have hu := h.first
  have hb := h.hand
  rw [turned_x, turned_z] at e ea
  simp only at e ea
  rw [← ea, ← e] at hb
  simp only at hb
  unfold UnitVec at hu
  rw [← ea] at hu
  simp only at hu
  have hYZ : Y ^ 2 + Z ^ 2 = 1 := by
    linear_combination hu - (Y ^ 2 * Real.cos t₂ ^ 2 + Z ^ 2) * c3 - Y ^ 2 * c2
  obtain ⟨t₁, h1, h2⟩ : ∃ t, Y = Real.cos t ∧ Z = Real.sin t := by
    have hn : ‖(⟨Y, Z⟩ : ℂ)‖ = 1 := by
      rw [Complex.norm_def, Complex.normSq_mk, ← sq, ← sq, hYZ, Real.sqrt_one]
    refine ⟨(⟨Y, Z⟩ : ℂ).arg, ?_, ?_⟩
    · have := Complex.norm_mul_cos_arg (⟨Y, Z⟩ : ℂ)
      rw [hn, one_mul] at this
      exact this.symm
    · have := Complex.norm_mul_sin_arg (⟨Y, Z⟩ : ℂ)
      rw [hn, one_mul] at this
      exact this.symm
  refine ⟨t₁, t₂, t₃, fun x => ?_⟩
  rw [turned_x, turned_z, turned_x, ← h1, ← h2]
  unfold inFrame
  rw [hb, ← e, ← ea]
  generalize Real.cos t₂ = C2 at *
  generalize Real.sin t₂ = S2 at *
  generalize Real.cos t₃ = C3 at *
  generalize Real.sin t₃ = S3 at *
  ext
  · simp only
    linear_combination (x.z * S2 * Z) * c3
  · simp only
    linear_combination (- x.z * S3 * Y) * c2
  · simp only
    linear_combination (x.z * C3 * Y) * c2

theorem sphereMean_inFrame {a b d : Direction} (hd : UnitVec d) (h : Frame a b d)
    {F : Direction → ℝ≥0∞} (hF : Measurable F) :
    (sphereMean fun n => F (inFrame a b d n)) = sphereMean F := by
  obtain ⟨t₁, t₂, t₃, e⟩ := inFrame_eq_turned hd h
  have ux : UnitVec ⟨1, 0, 0⟩ := by unfold UnitVec; norm_num
  have uz : UnitVec ⟨0, 0, 1⟩ := by unfold UnitVec; norm_num
  simp only [e]
  have m3 : Measurable fun n => F (turned ⟨1, 0, 0⟩ t₃ n) :=
    hF.comp (measurable_id.turned _ measurable_const)
  have m2 : Measurable fun n => F (turned ⟨1, 0, 0⟩ t₃ (turned ⟨0, 0, 1⟩ t₂ n)) :=
    m3.comp (measurable_id.turned _ measurable_const)
  have e1 := sphereMean_turned ux t₁ m2
  have e2 := sphereMean_turned uz t₂ m3
  have e3 := sphereMean_turned ux t₃ hF
  exact e1.trans (e2.trans e3)

theorem tilted_eq_inFrame (a b d : Direction) (u v : ℝ) :
    tilted a b d (2 * u - 1) v = inFrame a b d (directionFrom u v) := by
  unfold tilted inFrame directionFrom
  ext <;> simp only <;> ring

/-- In any frame, a uniform cosine and a uniform turn make a uniform direction. -/
theorem lintegral_tilted {a b d : Direction} (hd : UnitVec d) (h : Frame a b d)
    {F : Direction → ℝ≥0∞} (hF : Measurable F) :
    ∫⁻ u, ∫⁻ v, F (tilted a b d (2 * u - 1) v) ∂uniform ∂uniform = sphereMean F := by
  rw [← sphereMean_inFrame hd h hF, sphereMean_eq_uniform]
  · simp only [tilted_eq_inFrame]
  · refine hF.comp (measurable_point ?_ ?_ ?_) <;> (unfold inFrame; fun_prop)

end Minimc
