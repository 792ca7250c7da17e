import Verif.Lemmas.Stationary

/-! # Detailed balance of collisions in equilibrium -/

namespace Minimc

open Classical MeasureTheory Spec Set
open scoped ENNReal

variable {a b : Direction → Direction}

/-- Before and after are exchangeable for a given centre of mass and relative speed. -/
theorem lintegral_exchange (f : ℝ → ℝ≥0∞) (hf : Measurable f) (k : ℝ) (C : Point) {G H : Point → ℝ≥0∞}
    (hG : Measurable G) (hH : Measurable H) :
    ∫⁻ U, f (normSq U) * (G (combine 1 C k U) *
        sphereMean (fun n => H (combine 1 C (k * Real.sqrt (normSq U)) n))) ∂spaceVolume =
      ENNReal.ofReal (4 * Real.pi) * ∫⁻ r in Ioi (0 : ℝ), ENNReal.ofReal (r ^ 2) *
        (f (r ^ 2) * ((sphereMean fun n => G (combine 1 C (k * r) n)) *
          sphereMean fun n => H (combine 1 C (k * r) n))) := by
  have hs : ∀ U : Point, sphereMean (fun n => H (combine 1 C (k * Real.sqrt (normSq U)) n)) =
      ∫⁻ n, H (combine 1 C (k * Real.sqrt (normSq U)) n) ∂sphereLaw := fun U =>
    (lintegral_sphereLaw (hH.comp (by fun_prop))).symm
  have hm : Measurable fun U : Point =>
      sphereMean fun n => H (combine 1 C (k * Real.sqrt (normSq U)) n) := by
    simp only [hs]
    exact Measurable.lintegral_prod_right' (f := fun q : Point × Point =>
      H (combine 1 C (k * Real.sqrt (normSq q.1)) q.2)) (hH.comp (by fun_prop))
  have hm1 : Measurable fun U : Point => f (normSq U) := hf.comp (by fun_prop)
  have hm2 : Measurable fun U : Point => G (combine 1 C k U) := hG.comp (by fun_prop)
  rw [lintegral_space (F := fun U => f (normSq U) * (G (combine 1 C k U) *
      sphereMean fun n => H (combine 1 C (k * Real.sqrt (normSq U)) n))) (hm1.mul (hm2.mul hm))]
  congr 1
  refine setLIntegral_congr_fun measurableSet_Ioi fun r hr => ?_
  have hr : 0 < r := hr
  congr 1
  have hmG : Measurable fun n : Direction => G (combine 1 C (k * r) n) := hG.comp (by fun_prop)
  have e1 := sphereMean_const_mul hmG (f (r ^ 2) * sphereMean fun n => H (combine 1 C (k * r) n))
  have e2 : f (r ^ 2) * ((sphereMean fun n => G (combine 1 C (k * r) n)) *
      sphereMean fun n => H (combine 1 C (k * r) n)) =
      f (r ^ 2) * (sphereMean fun n => H (combine 1 C (k * r) n)) *
        sphereMean fun n => G (combine 1 C (k * r) n) := by ring
  rw [e2, ← e1]
  refine sphereMean_congr fun d hd => ?_
  have e3 : combine 1 C k (d.smul r) = combine 1 C (k * r) d := by
    unfold combine Point.smul
    ext <;> simp only <;> ring
  rw [sqrt_normSq_smul hd hr.le, normSq_smul, normSq_unit hd, mul_one, e3]
  ring

/-- Pairs of velocities before and after a collision. -/
theorem lintegral_balance {A : ℝ} (hA : 0 < A) (c : ℝ) {G H : Point → ℝ≥0∞} (hG : Measurable G)
    (hH : Measurable H) :
    ∫⁻ v, ∫⁻ V, pairWeight A c v V * (G v * sphereMean (fun n => H (struck A v V n)))
        ∂spaceVolume ∂spaceVolume =
      ∫⁻ v, ∫⁻ V, pairWeight A c v V * (H v * sphereMean (fun n => G (struck A v V n)))
        ∂spaceVolume ∂spaceVolume := by
  have hw := measurable_pairWeight A c
  have key : ∀ {G H : Point → ℝ≥0∞}, Measurable G → Measurable H →
      ∫⁻ v, ∫⁻ V, pairWeight A c v V * (G v * sphereMean (fun n => H (struck A v V n)))
        ∂spaceVolume ∂spaceVolume =
      ∫⁻ C, ENNReal.ofReal (Real.exp (-((1 + A) * (c * normSq C)))) * (ENNReal.ofReal (4 * Real.pi) *
        ∫⁻ r in Ioi (0 : ℝ), ENNReal.ofReal (r ^ 2) *
        (ENNReal.ofReal (Real.exp (-(A / (1 + A) * (c * r ^ 2))) * Real.sqrt (r ^ 2)) *
          ((sphereMean fun n => G (combine 1 C (A / (1 + A) * r) n)) *
          sphereMean fun n => H (combine 1 C (A / (1 + A) * r) n)))) ∂spaceVolume := by
    intro G H hG hH
    rw [lintegral_pairs hA (Φ := fun q => pairWeight A c q.1 q.2 * (G q.1 *
      sphereMean fun n => H (struck A q.1 q.2 n)))
      (hw.mul ((hG.comp measurable_fst).mul (measurable_sphereMean_struck A hH)))]
    refine lintegral_congr fun C => ?_
    simp only [pairWeight_eq hA, struck_eq hA, mul_assoc]
    rw [lintegral_const_mul' _ _ ENNReal.ofReal_ne_top]
    congr 1
    exact lintegral_exchange (fun q => ENNReal.ofReal (Real.exp (-(A / (1 + A) * (c * q))) *
      Real.sqrt q)) (by fun_prop) (A / (1 + A)) C hG hH
  rw [key hG hH, key hH hG]
  simp only [mul_comm (sphereMean fun n => G _)]

/-- The same with the rate at which neutrons leave collisions. -/
theorem lintegral_outflow_from {A β c : ℝ} (hA : 0 < A) (hβ : 0 < β) (hc : β ^ 2 = A * c)
    {G H : Point → ℝ≥0∞} (hG : Measurable G) (hG1 : ∀ x, G x ≤ 1) (hH : Measurable H)
    (hH1 : ∀ x, H x ≤ 1) :
    ∫⁻ x, ENNReal.ofReal (Real.exp (-(c * normSq x))) * (G x * outflow A β H x) ∂spaceVolume =
      ∫⁻ x, ENNReal.ofReal (Real.exp (-(c * normSq x))) * (H x * outflow A β G x) ∂spaceVolume := by
  have hpi := Real.pi_pos
  set κ := β ^ 3 / (Real.pi * Real.sqrt Real.pi) with hκ
  have hκ0 : 0 < κ := by positivity
  have hw : ∀ x V, ENNReal.ofReal (Real.exp (-(c * normSq x))) *
      ENNReal.ofReal (gasDensity β V * Real.sqrt (normSq (combine 1 x (-1) V))) =
      ENNReal.ofReal κ * pairWeight A c x V := by
    intro x V
    unfold gasDensity pairWeight
    rw [← ENNReal.ofReal_mul (Real.exp_pos _).le, ← ENNReal.ofReal_mul hκ0.le, hc, ← hκ]
    congr 1
    ring
  have hr : ∀ {G H : Point → ℝ≥0∞}, (∀ x, G x ≤ 1) → Measurable H →
      ∫⁻ x, ENNReal.ofReal (Real.exp (-(c * normSq x))) * (G x * outflow A β H x) ∂spaceVolume =
      ENNReal.ofReal κ * ∫⁻ x, ∫⁻ V, pairWeight A c x V *
        (G x * sphereMean (fun n => H (struck A x V n))) ∂spaceVolume ∂spaceVolume := by
    intro G H hG1 hH
    rw [← lintegral_const_mul' _ _ ENNReal.ofReal_ne_top]
    refine lintegral_congr fun x => ?_
    have hGx : G x ≠ ∞ := ne_top_of_le_ne_top ENNReal.one_ne_top (hG1 x)
    unfold outflow
    rw [← lintegral_const_mul' _ _ hGx, ← lintegral_const_mul' _ _ ENNReal.ofReal_ne_top,
      ← lintegral_const_mul' _ _ ENNReal.ofReal_ne_top]
    refine lintegral_congr fun V => ?_
    rw [mul_left_comm (G x), ← mul_assoc, hw, mul_assoc]
  rw [hr hG1 hH, hr hH1 hG, lintegral_balance hA c hG hH]

/-- Collisions that neutrons enter from `S` and leave in `R`. -/
theorem lintegral_leavesIn_from (h : Frames a b) {A β c : ℝ} (m : ℝ) (hA : 0 < A) (hβ : 0 < β)
    (hc : β ^ 2 = A * c) (hm : 0 < m) {S R : Set (Direction × ℝ)} (hS : MeasurableSet S)
    (hR : MeasurableSet R) :
    ENNReal.ofReal (4 * Real.pi) * ∫⁻ v in Ioi (0 : ℝ),
        ENNReal.ofReal (v ^ 2 * Real.exp (-(c * v ^ 2))) *
        sphereMean (fun d => ENNReal.ofReal (meanRelativeSpeed β v) *
          (S.indicator (fun _ => 1) (d, m * v ^ 2 / 2) * uniforms (leavesIn a b A m β d v R))) =
      ∫⁻ x, ENNReal.ofReal (Real.exp (-(c * normSq x))) *
        (kept m ((S ∩ {z | z.2 ≠ 0}).indicator fun _ => 1) x *
          outflow A β (kept m ((R ∩ {z | z.2 ≠ 0}).indicator fun _ => 1)) x) ∂spaceVolume := by
  have hind : ∀ {T : Set (Direction × ℝ)}, MeasurableSet T →
      Measurable (T.indicator fun _ => (1 : ℝ≥0∞)) := fun hT => measurable_const.indicator hT
  have hle : ∀ (T : Set (Direction × ℝ)) x, kept m (T.indicator fun _ => 1) x ≤ 1 := by
    intro T x
    unfold kept
    exact indicator_le_self' (f := fun _ => (1 : ℝ≥0∞)) (fun _ _ => zero_le) _
  have key : ∀ {T : Set (Direction × ℝ)}, MeasurableSet T →
      (∀ n n', (n, (0 : ℝ)) ∈ T ↔ (n', (0 : ℝ)) ∈ T) → ∀ {v : ℝ}, 0 < v → ∀ {d : Direction}, UnitVec d →
      ENNReal.ofReal (meanRelativeSpeed β v) * uniforms (leavesIn a b A m β d v T) =
        outflow A β (kept m (T.indicator fun _ => 1)) (d.smul v) := by
    intro T hT h0 v hv d hd
    have e := uniforms_leaving_gas h A m hβ hv hd hT h0
    rw [combine_zero] at e
    exact e
  have hkeep : ∀ {v : ℝ}, 0 < v → ∀ {d : Direction}, UnitVec d →
      kept m ((S ∩ {z | z.2 ≠ 0}).indicator fun _ => 1) (d.smul v) =
        S.indicator (fun _ => 1) (d, m * v ^ 2 / 2) := by
    intro v hv d hd
    have hne : m * v ^ 2 / 2 ≠ 0 := by positivity
    unfold kept
    rw [directed_smul hd hv, normSq_smul, normSq_unit hd, mul_one]
    simp only [indicator, mem_inter_iff, Set.mem_ofPred_eq, ne_eq, hne, not_false_eq_true, and_true]
  set Z : Set (Direction × ℝ) := {z | z.2 = 0} with hZ
  set P := S ∩ {z : Direction × ℝ | z.2 ≠ 0} with hP
  set Q := R ∩ {z : Direction × ℝ | z.2 ≠ 0} with hQ
  have hZm : MeasurableSet Z := measurableSet_eq_fun measurable_snd measurable_const
  have hPm : MeasurableSet P := hS.inter hZm.compl
  have hQm : MeasurableSet Q := hR.inter hZm.compl
  have hQ0 : ∀ n n', (n, (0 : ℝ)) ∈ Q ↔ (n', (0 : ℝ)) ∈ Q := by
    intro n n'
    simp [hQ]
  have hZ0 : ∀ n n', (n, (0 : ℝ)) ∈ Z ↔ (n', (0 : ℝ)) ∈ Z := by
    intro n n'
    simp [hZ]
  have mP := measurable_kept m (hind hPm)
  have mQ := measurable_outflow A β (measurable_kept m (hind hQm))
  have mZ := measurable_outflow A β (measurable_kept m (hind hZm))
  -- neutrons that leave at rest
  have eZ : ∫⁻ x, ENNReal.ofReal (Real.exp (-(c * normSq x))) *
      outflow A β (kept m (Z.indicator fun _ => 1)) x ∂spaceVolume = 0 := by
    rw [lintegral_outflow hA hβ hc (measurable_kept m (hind hZm)),
      ← lintegral_speeds c (measurable_inflow β (measurable_kept m (hind hZm)))]
    refine mul_eq_zero_of_right _ ?_
    rw [setLIntegral_congr_fun (g := fun _ => 0) measurableSet_Ioi, lintegral_zero]
    intro v hv
    have hv : 0 < v := hv
    have e : (sphereMean fun d => inflow β (kept m (Z.indicator fun _ => 1)) (d.smul v)) =
        sphereMean fun _ => 0 := by
      refine sphereMean_congr fun d hd => ?_
      rw [inflow_kept hβ hv h hd, indicator_of_notMem, mul_zero]
      simp only [hZ, Set.mem_ofPred_eq]
      positivity
    simp only
    rw [e, sphereMean_const, mul_zero]
  refine le_antisymm ?_ ?_
  · have e : ∫⁻ x, ENNReal.ofReal (Real.exp (-(c * normSq x))) *
        (kept m (P.indicator fun _ => 1) x * (outflow A β (kept m (Q.indicator fun _ => 1)) x +
          outflow A β (kept m (Z.indicator fun _ => 1)) x)) ∂spaceVolume ≤
        ∫⁻ x, ENNReal.ofReal (Real.exp (-(c * normSq x))) *
          (kept m (P.indicator fun _ => 1) x *
            outflow A β (kept m (Q.indicator fun _ => 1)) x) ∂spaceVolume := by
      simp only [mul_add]
      rw [lintegral_add_left (by fun_prop)]
      refine (add_le_add_right (lintegral_mono (g := fun x =>
        ENNReal.ofReal (Real.exp (-(c * normSq x))) *
          outflow A β (kept m (Z.indicator fun _ => 1)) x) fun x => ?_) _).trans ?_
      · exact mul_le_mul_right ((mul_le_mul_left (hle P x) _).trans (one_mul _).le) _
      · rw [eZ, add_zero]
    refine le_trans ?_ e
    rw [← lintegral_speeds c (by fun_prop)]
    refine mul_le_mul_right (setLIntegral_mono' measurableSet_Ioi fun v hv => ?_) _
    refine mul_le_mul_right (sphereMean_mono_unit fun d hd => ?_) _
    rw [hkeep hv hd, ← key hQm hQ0 hv hd, ← key hZm hZ0 hv hd, ← mul_add, mul_left_comm]
    refine mul_le_mul_right (mul_le_mul_right ((measure_mono ?_).trans (measure_union_le _ _)) _) _
    rintro us ⟨n, z, hz, e⟩
    by_cases hz2 : z.2 = 0
    · exact Or.inr ⟨n, z, hz2, e⟩
    · exact Or.inl ⟨n, z, ⟨hz, hz2⟩, e⟩
  · rw [← lintegral_speeds c (G := fun x => kept m (P.indicator fun _ => 1) x *
      outflow A β (kept m (Q.indicator fun _ => 1)) x) (mP.mul mQ)]
    refine mul_le_mul_right (setLIntegral_mono' measurableSet_Ioi fun v hv => ?_) _
    refine mul_le_mul_right (sphereMean_mono_unit fun d hd => ?_) _
    rw [hkeep hv hd, ← key hQm hQ0 hv hd, mul_left_comm]
    refine mul_le_mul_right (mul_le_mul_right (measure_mono ?_) _) _
    rintro us ⟨n, z, hz, e⟩
    exact ⟨n, z, hz.1, e⟩

/-- Detailed balance by speeds. -/
theorem lintegral_leavesIn_balance (h : Frames a b) {A β c : ℝ} (m : ℝ) (hA : 0 < A) (hβ : 0 < β)
    (hc : β ^ 2 = A * c) (hm : 0 < m) {S R : Set (Direction × ℝ)} (hS : MeasurableSet S)
    (hR : MeasurableSet R) :
    ∫⁻ v in Ioi (0 : ℝ), ENNReal.ofReal (v ^ 2 * Real.exp (-(c * v ^ 2))) *
        sphereMean (fun d => ENNReal.ofReal (meanRelativeSpeed β v) *
          (S.indicator (fun _ => 1) (d, m * v ^ 2 / 2) * uniforms (leavesIn a b A m β d v R))) =
      ∫⁻ v in Ioi (0 : ℝ), ENNReal.ofReal (v ^ 2 * Real.exp (-(c * v ^ 2))) *
        sphereMean (fun d => ENNReal.ofReal (meanRelativeSpeed β v) *
          (R.indicator (fun _ => 1) (d, m * v ^ 2 / 2) * uniforms (leavesIn a b A m β d v S))) := by
  have h4 : ENNReal.ofReal (4 * Real.pi) ≠ 0 := by
    have := Real.pi_pos
    simp only [ne_eq, ENNReal.ofReal_eq_zero, not_le]
    positivity
  have hZm : MeasurableSet {z : Direction × ℝ | z.2 = 0} :=
    measurableSet_eq_fun measurable_snd measurable_const
  have hle : ∀ (T : Set (Direction × ℝ)) x, kept m (T.indicator fun _ => 1) x ≤ 1 := by
    intro T x
    unfold kept
    exact indicator_le_self' (f := fun _ => (1 : ℝ≥0∞)) (fun _ _ => zero_le) _
  refine (ENNReal.mul_right_inj h4 ENNReal.ofReal_ne_top).1 ?_
  rw [lintegral_leavesIn_from h m hA hβ hc hm hS hR, lintegral_leavesIn_from h m hA hβ hc hm hR hS]
  exact lintegral_outflow_from hA hβ hc
    (measurable_kept m (measurable_const.indicator (hS.inter hZm.compl))) (hle _)
    (measurable_kept m (measurable_const.indicator (hR.inter hZm.compl))) (hle _)

end Minimc
