import Verif.Lemmas.CollisionLaw

/-! # Collisions do not change a gas of neutrons in equilibrium -/

namespace Minimc

open Classical MeasureTheory Spec Set
open scoped ENNReal

variable {a b : Direction → Direction}

/-- Rate at which neutrons of velocity `x` leave collisions, counted with `H`. -/
noncomputable def outflow (A β : ℝ) (H : Point → ℝ≥0∞) (x : Point) : ℝ≥0∞ :=
  ∫⁻ V, ENNReal.ofReal (gasDensity β V * Real.sqrt (normSq (combine 1 x (-1) V))) *
    sphereMean (fun n => H (struck A x V n)) ∂spaceVolume

/-- Rate at which neutrons of velocity `x` enter collisions. -/
noncomputable def inflow (β : ℝ) (H : Point → ℝ≥0∞) (x : Point) : ℝ≥0∞ :=
  ∫⁻ V, ENNReal.ofReal (gasDensity β V * Real.sqrt (normSq (combine 1 x (-1) V))) * H x ∂spaceVolume

theorem measurable_gasRate (β : ℝ) : Measurable fun q : Point × Point =>
    ENNReal.ofReal (gasDensity β q.2 * Real.sqrt (normSq (combine 1 q.1 (-1) q.2))) := by
  unfold gasDensity
  fun_prop

theorem measurable_sphereMean_struck (A : ℝ) {H : Point → ℝ≥0∞} (hH : Measurable H) :
    Measurable fun q : Point × Point => sphereMean fun n => H (struck A q.1 q.2 n) := by
  have e : ∀ q : Point × Point, (sphereMean fun n => H (struck A q.1 q.2 n)) =
      ∫⁻ n, H (struck A q.1 q.2 n) ∂sphereLaw := fun q =>
    (lintegral_sphereLaw (hH.comp (by fun_prop))).symm
  simp only [e]
  exact Measurable.lintegral_prod_right' (f := fun q : (Point × Point) × Point =>
    H (struck A q.1.1 q.1.2 q.2)) (hH.comp (by fun_prop))

theorem measurable_outflow (A β : ℝ) {H : Point → ℝ≥0∞} (hH : Measurable H) :
    Measurable (outflow A β H) :=
  Measurable.lintegral_prod_right' (f := fun q : Point × Point =>
    ENNReal.ofReal (gasDensity β q.2 * Real.sqrt (normSq (combine 1 q.1 (-1) q.2))) *
      sphereMean fun n => H (struck A q.1 q.2 n))
    ((measurable_gasRate β).mul (measurable_sphereMean_struck A hH))

theorem measurable_inflow (β : ℝ) {H : Point → ℝ≥0∞} (hH : Measurable H) :
    Measurable (inflow β H) :=
  Measurable.lintegral_prod_right' (f := fun q : Point × Point =>
    ENNReal.ofReal (gasDensity β q.2 * Real.sqrt (normSq (combine 1 q.1 (-1) q.2))) * H q.1)
    ((measurable_gasRate β).mul (hH.comp measurable_fst))

theorem sphereMean_mono_unit {F G : Direction → ℝ≥0∞} (h : ∀ d, UnitVec d → F d ≤ G d) :
    sphereMean F ≤ sphereMean G := by
  unfold sphereMean
  exact mul_le_mul_right (setLIntegral_mono' measurableSet_Ioo fun z hz =>
    lintegral_mono fun φ => h _ (unitVec_sphere hz)) _

/-- In equilibrium as much leaves collisions as enters them. -/
theorem lintegral_outflow {A β c : ℝ} (hA : 0 < A) (hβ : 0 < β) (hc : β ^ 2 = A * c)
    {H : Point → ℝ≥0∞} (hH : Measurable H) :
    ∫⁻ x, ENNReal.ofReal (Real.exp (-(c * normSq x))) * outflow A β H x ∂spaceVolume =
      ∫⁻ x, ENNReal.ofReal (Real.exp (-(c * normSq x))) * inflow β H x ∂spaceVolume := by
  have hpi := Real.pi_pos
  set κ := β ^ 3 / (Real.pi * Real.sqrt Real.pi) with hκ
  have hκ0 : 0 < κ := by positivity
  have hw : ∀ x V, ENNReal.ofReal (Real.exp (-(c * normSq x))) *
      ENNReal.ofReal (gasDensity β V * Real.sqrt (normSq (combine 1 x (-1) V))) =
      ENNReal.ofReal κ * pairWeight A c x V := by
    intro x V
    unfold gasDensity pairWeight
    rw [← ENNReal.ofReal_mul (Real.exp_pos _).le, ← ENNReal.ofReal_mul hκ0.le, hc, ← hκ]
    congr 1
    ring
  have hr : ∀ (G : Point → Point → ℝ≥0∞), ∫⁻ x, ENNReal.ofReal (Real.exp (-(c * normSq x))) *
      (∫⁻ V, ENNReal.ofReal (gasDensity β V * Real.sqrt (normSq (combine 1 x (-1) V))) * G x V
        ∂spaceVolume) ∂spaceVolume =
      ENNReal.ofReal κ * ∫⁻ x, ∫⁻ V, pairWeight A c x V * G x V ∂spaceVolume ∂spaceVolume := by
    intro G
    rw [← lintegral_const_mul' _ _ ENNReal.ofReal_ne_top]
    refine lintegral_congr fun x => ?_
    rw [← lintegral_const_mul' _ _ ENNReal.ofReal_ne_top,
      ← lintegral_const_mul' _ _ ENNReal.ofReal_ne_top]
    refine lintegral_congr fun V => ?_
    rw [← mul_assoc, hw, mul_assoc]
  unfold outflow inflow
  rw [hr fun x V => sphereMean fun n => H (struck A x V n), hr fun x _ => H x,
    lintegral_equilibrium hA c hH]

/-- Velocities by speed and direction. -/
theorem lintegral_speeds (c : ℝ) {G : Point → ℝ≥0∞} (hG : Measurable G) :
    ENNReal.ofReal (4 * Real.pi) * ∫⁻ v in Ioi (0 : ℝ),
        ENNReal.ofReal (v ^ 2 * Real.exp (-(c * v ^ 2))) * sphereMean (fun d => G (d.smul v)) =
      ∫⁻ x, ENNReal.ofReal (Real.exp (-(c * normSq x))) * G x ∂spaceVolume := by
  rw [lintegral_space (F := fun x => ENNReal.ofReal (Real.exp (-(c * normSq x))) * G x) (by fun_prop)]
  congr 1
  refine setLIntegral_congr_fun measurableSet_Ioi fun v hv => ?_
  have hm : Measurable fun d : Direction => G (d.smul v) :=
    hG.comp (measurable_id.point_smul measurable_const)
  have e : (sphereMean fun d => ENNReal.ofReal (Real.exp (-(c * normSq (d.smul v)))) * G (d.smul v)) =
      ENNReal.ofReal (Real.exp (-(c * v ^ 2))) * sphereMean fun d => G (d.smul v) := by
    rw [← sphereMean_const_mul hm]
    refine sphereMean_congr fun d hd => ?_
    rw [normSq_smul, normSq_unit hd, mul_one]
  rw [e, ← mul_assoc, ← ENNReal.ofReal_mul (by positivity)]

/-- The outcomes of a collision. -/
abbrev leavesIn (a b : Direction → Direction) (A m β : ℝ) (d : Direction) (v : ℝ)
    (S : Set (Direction × ℝ)) : Set (ℕ → ℝ) :=
  {us | ∃ n, ∃ z ∈ S, leaving a b A m β d v n us = some z}

theorem combine_zero (v : ℝ) (d : Direction) : combine v d 0 d = d.smul v := by
  unfold combine Point.smul
  ext <;> simp only <;> ring

theorem directed_smul {d : Direction} (hd : UnitVec d) {v : ℝ} (hv : 0 < v) :
    directed (d.smul v) = d := by
  unfold directed
  have h := normSq_unit hd
  rw [normSq_smul, h, mul_one, if_neg (by positivity), Real.sqrt_sq hv.le]
  unfold combine Point.smul
  ext <;> simp only <;> field_simp <;> ring

theorem inflow_kept {β v m : ℝ} (hβ : 0 < β) (hv : 0 < v) (h : Frames a b) {d : Direction}
    (hd : UnitVec d) {F : Direction × ℝ → ℝ≥0∞} :
    inflow β (kept m F) (d.smul v) =
      ENNReal.ofReal (meanRelativeSpeed β v) * F (d, m * v ^ 2 / 2) := by
  have hm : Measurable fun V =>
      ENNReal.ofReal (gasDensity β V * Real.sqrt (normSq (combine 1 (d.smul v) (-1) V))) :=
    (measurable_gasRate β).comp (f := fun V => (d.smul v, V)) (by fun_prop)
  unfold inflow
  rw [lintegral_mul_const _ hm, ← combine_zero, meanRelativeSpeed_gas hd (h.frame d hd) hβ hv,
    combine_zero]
  unfold kept
  rw [directed_smul hd hv, normSq_smul, normSq_unit hd, mul_one]

/-- Stationarity by speeds. -/
theorem lintegral_leavesIn (h : Frames a b) {A β c : ℝ} (m : ℝ) (hA : 0 < A) (hβ : 0 < β)
    (hc : β ^ 2 = A * c) (hm : 0 < m) {S : Set (Direction × ℝ)} (hS : MeasurableSet S) :
    ∫⁻ v in Ioi (0 : ℝ), ENNReal.ofReal (v ^ 2 * Real.exp (-(c * v ^ 2))) *
        sphereMean (fun d => ENNReal.ofReal (meanRelativeSpeed β v) *
          uniforms (leavesIn a b A m β d v S)) =
      ∫⁻ v in Ioi (0 : ℝ), ENNReal.ofReal (v ^ 2 * Real.exp (-(c * v ^ 2))) *
        sphereMean (fun d => ENNReal.ofReal (meanRelativeSpeed β v) *
          S.indicator (fun _ => 1) (d, m * v ^ 2 / 2)) := by
  have h4 : ENNReal.ofReal (4 * Real.pi) ≠ 0 := by
    have := Real.pi_pos
    simp only [ne_eq, ENNReal.ofReal_eq_zero, not_le]
    positivity
  have hind : ∀ {T : Set (Direction × ℝ)}, MeasurableSet T →
      Measurable (T.indicator fun _ => (1 : ℝ≥0∞)) := fun hT => measurable_const.indicator hT
  -- sets that do not distinguish the directions of neutrons at rest
  have key : ∀ {T : Set (Direction × ℝ)}, MeasurableSet T →
      (∀ n n', (n, (0 : ℝ)) ∈ T ↔ (n', (0 : ℝ)) ∈ T) → ∀ {v : ℝ}, 0 < v → ∀ {d : Direction}, UnitVec d →
      ENNReal.ofReal (meanRelativeSpeed β v) * uniforms (leavesIn a b A m β d v T) =
        outflow A β (kept m (T.indicator fun _ => 1)) (d.smul v) := by
    intro T hT h0 v hv d hd
    have e := uniforms_leaving_gas h A m hβ hv hd hT h0
    rw [combine_zero] at e
    exact e
  have right : ∀ {T : Set (Direction × ℝ)}, MeasurableSet T →
      ENNReal.ofReal (4 * Real.pi) * ∫⁻ v in Ioi (0 : ℝ),
        ENNReal.ofReal (v ^ 2 * Real.exp (-(c * v ^ 2))) *
        sphereMean (fun d => ENNReal.ofReal (meanRelativeSpeed β v) *
          T.indicator (fun _ => 1) (d, m * v ^ 2 / 2)) =
      ∫⁻ x, ENNReal.ofReal (Real.exp (-(c * normSq x))) *
        inflow β (kept m (T.indicator fun _ => 1)) x ∂spaceVolume := by
    intro T hT
    rw [← lintegral_speeds c (measurable_inflow β (measurable_kept m (hind hT)))]
    congr 1
    refine setLIntegral_congr_fun measurableSet_Ioi fun v hv => ?_
    congr 1
    refine sphereMean_congr fun d hd => ?_
    rw [inflow_kept hβ hv h hd]
  refine (ENNReal.mul_right_inj h4 ENNReal.ofReal_ne_top).1 ?_
  rw [right hS]
  set P := S ∩ {z | z.2 ≠ 0} with hP
  set Z : Set (Direction × ℝ) := {z | z.2 = 0} with hZ
  have hZm : MeasurableSet Z := measurableSet_eq_fun measurable_snd measurable_const
  have hPm : MeasurableSet P := hS.inter hZm.compl
  have hP0 : ∀ n n', (n, (0 : ℝ)) ∈ P ↔ (n', (0 : ℝ)) ∈ P := by
    intro n n'
    simp [hP]
  have hZ0 : ∀ n n', (n, (0 : ℝ)) ∈ Z ↔ (n', (0 : ℝ)) ∈ Z := by
    intro n n'
    simp [hZ]
  have mP := measurable_outflow A β (measurable_kept m (hind hPm))
  have mZ := measurable_outflow A β (measurable_kept m (hind hZm))
  -- neutrons at rest do not count
  have eZ : ∫⁻ x, ENNReal.ofReal (Real.exp (-(c * normSq x))) *
      inflow β (kept m (Z.indicator fun _ => 1)) x ∂spaceVolume = 0 := by
    rw [← right hZm]
    refine mul_eq_zero_of_right _ ?_
    rw [setLIntegral_congr_fun (g := fun _ => 0) measurableSet_Ioi, lintegral_zero]
    intro v hv
    have hv : 0 < v := hv
    have : ∀ d : Direction, Z.indicator (fun _ => (1 : ℝ≥0∞)) (d, m * v ^ 2 / 2) = 0 := fun d =>
      indicator_of_notMem (by simp only [hZ, Set.mem_ofPred_eq]; positivity) _
    simp only [this, mul_zero, sphereMean_const]
  have eP : ∫⁻ x, ENNReal.ofReal (Real.exp (-(c * normSq x))) *
      inflow β (kept m (P.indicator fun _ => 1)) x ∂spaceVolume =
      ∫⁻ x, ENNReal.ofReal (Real.exp (-(c * normSq x))) *
        inflow β (kept m (S.indicator fun _ => 1)) x ∂spaceVolume := by
    rw [← right hPm, ← right hS]
    congr 1
    refine setLIntegral_congr_fun measurableSet_Ioi fun v hv => ?_
    have hv : 0 < v := hv
    have : ∀ d : Direction, P.indicator (fun _ => (1 : ℝ≥0∞)) (d, m * v ^ 2 / 2) =
        S.indicator (fun _ => 1) (d, m * v ^ 2 / 2) := by
      intro d
      have hne : m * v ^ 2 / 2 ≠ 0 := by positivity
      simp only [indicator, hP, mem_inter_iff, Set.mem_ofPred_eq, ne_eq, hne, not_false_eq_true, and_true]
    simp only [this]
  rw [← eP]
  refine le_antisymm ?_ ?_
  · have e : ∫⁻ x, ENNReal.ofReal (Real.exp (-(c * normSq x))) *
        (outflow A β (kept m (P.indicator fun _ => 1)) x +
          outflow A β (kept m (Z.indicator fun _ => 1)) x) ∂spaceVolume =
        ∫⁻ x, ENNReal.ofReal (Real.exp (-(c * normSq x))) *
          inflow β (kept m (P.indicator fun _ => 1)) x ∂spaceVolume := by
      simp only [mul_add]
      rw [lintegral_add_left (by fun_prop), lintegral_outflow hA hβ hc (measurable_kept m (hind hPm)),
        lintegral_outflow hA hβ hc (measurable_kept m (hind hZm)), eZ, add_zero]
    rw [← e, ← lintegral_speeds c (by fun_prop)]
    refine mul_le_mul_right (setLIntegral_mono' measurableSet_Ioi fun v hv => ?_) _
    refine mul_le_mul_right (sphereMean_mono_unit fun d hd => ?_) _
    rw [← key hPm hP0 hv hd, ← key hZm hZ0 hv hd, ← mul_add]
    refine mul_le_mul_right ((measure_mono ?_).trans (measure_union_le _ _)) _
    rintro us ⟨n, z, hz, e⟩
    by_cases hz2 : z.2 = 0
    · exact Or.inr ⟨n, z, hz2, e⟩
    · exact Or.inl ⟨n, z, ⟨hz, hz2⟩, e⟩
  · rw [← lintegral_outflow hA hβ hc (measurable_kept m (hind hPm)), ← lintegral_speeds c mP]
    refine mul_le_mul_right (setLIntegral_mono' measurableSet_Ioi fun v hv => ?_) _
    refine mul_le_mul_right (sphereMean_mono_unit fun d hd => ?_) _
    rw [← key hPm hP0 hv hd]
    refine mul_le_mul_right (measure_mono ?_) _
    rintro us ⟨n, z, hz, e⟩
    exact ⟨n, z, hz.1, e⟩

/-- Energies instead of speeds. -/
theorem lintegral_energies {m : ℝ} (hm : 0 < m) (G : ℝ → ℝ≥0∞) :
    ∫⁻ e in Ioi (0 : ℝ), G e = ∫⁻ v in Ioi (0 : ℝ), ENNReal.ofReal (m * v) * G (m * v ^ 2 / 2) := by
  have himg : (fun v : ℝ => m * v ^ 2 / 2) '' Ioi 0 = Ioi 0 := by
    ext e
    simp only [mem_image, mem_Ioi]
    constructor
    · rintro ⟨v, hv, rfl⟩
      positivity
    · intro he
      refine ⟨Real.sqrt (2 * e / m), Real.sqrt_pos.2 (by positivity), ?_⟩
      rw [Real.sq_sqrt (by positivity)]
      field_simp
  have e := lintegral_image_eq_lintegral_abs_deriv_mul (f := fun v : ℝ => m * v ^ 2 / 2)
    (f' := fun v => m * v) measurableSet_Ioi (s := Ioi 0) (fun v _ => by
      have := (((hasDerivAt_pow 2 v).const_mul m).div_const 2).hasDerivWithinAt (s := Ioi 0)
      refine this.congr_deriv ?_
      simp
      ring) (fun v hv w hw e => by
      have hv : 0 < v := hv
      have hw : 0 < w := hw
      have : v ^ 2 = w ^ 2 := by
        simp only at e
        field_simp at e
        exact e
      exact (sq_eq_sq₀ hv.le hw.le).1 this) G
  rw [himg] at e
  rw [e]
  refine setLIntegral_congr_fun measurableSet_Ioi fun v hv => ?_
  have hv : 0 < v := hv
  rw [abs_of_pos (by positivity)]

theorem speedOf_energy {m v : ℝ} (hm : 0 < m) (hv : 0 ≤ v) : speedOf m (m * v ^ 2 / 2) = v := by
  unfold speedOf
  rw [show 2 * (m * v ^ 2 / 2) / m = v ^ 2 by field_simp, Real.sqrt_sq hv]

end Minimc
