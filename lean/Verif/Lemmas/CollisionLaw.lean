import Verif.Lemmas.Leaving

/-! # The law of what leaves a collision, in terms of velocities -/

namespace Minimc

open Classical MeasureTheory Spec Set
open scoped ENNReal

variable {a b : Direction → Direction}

/-- The numbers that follow the choice of the atom. -/
theorem lintegral_departure (h : Frames a b) (A m : ℝ) {d : Direction} (speed s μ : ℝ)
    {F : Direction × ℝ → ℝ≥0∞} (hF : Measurable F) :
    ∫⁻ us, F (departure a b A m d speed s μ us) ∂uniforms =
      ∫⁻ u, sphereMean (fun n => spun (a d) (b d) d m F (struck A (combine speed d 0 d)
        (combine s (tilted (a d) (b d) d μ u) 0 d) n)) ∂uniform := by
  have ha := h.first
  have hb := h.second
  have hS := measurable_spun (a d) (b d) d m hF
  set v := combine speed d 0 d with hv
  set T : ℝ → Point := fun u => combine s (tilted (a d) (b d) d μ u) 0 d with hT
  have hTm : Measurable T := by
    rw [hT]
    fun_prop
  set W : ℝ → Direction := fun u => directed (combine 1 v (-1) (T u)) with hW
  have hWm : Measurable W := by
    rw [hW]
    fun_prop
  set X : ℝ → ℝ → ℝ → Point := fun u p q =>
    struck A v (T u) (tilted (a (W u)) (b (W u)) (W u) (2 * p - 1) q) with hX
  have hXm : Measurable fun z : ℝ × ℝ × ℝ => X z.1 z.2.1 z.2.2 := by
    rw [hX]
    fun_prop
  set G : ℝ → ℝ → ℝ → ℝ → ℝ≥0∞ := fun u p q t =>
    F (tilted (a d) (b d) d (cosAngle d (directed (X u p q))) t, m * normSq (X u p q) / 2) with hG
  have hGm : Measurable fun z : ℝ × ℝ × ℝ × ℝ => G z.1 z.2.1 z.2.2.1 z.2.2.2 := by
    have hx : Measurable fun z : ℝ × ℝ × ℝ × ℝ => X z.1 z.2.1 z.2.2.1 :=
      hXm.comp (f := fun z : ℝ × ℝ × ℝ × ℝ => (z.1, z.2.1, z.2.2.1)) (by fun_prop)
    exact hF.comp (by fun_prop)
  have e : ∀ us, F (departure a b A m d speed s μ us) = G (us 0) (us 1) (us 2) (us 3) := fun us => rfl
  simp only [e]
  rw [lintegral_first (F := fun u us => G u (us 0) (us 1) (us 2))]
  · refine lintegral_congr fun u => ?_
    rw [lintegral_first (F := fun p us => G u p (us 0) (us 1))]
    · have h2 : ∀ p, ∫⁻ us, G u p (us 0) (us 1) ∂uniforms =
          ∫⁻ q, spun (a d) (b d) d m F (X u p q) ∂uniform := by
        intro p
        rw [lintegral_first (F := fun q us => G u p q (us 0))]
        · refine lintegral_congr fun q => ?_
          rw [lintegral_first (F := fun t _ => G u p q t)]
          · simp only [lintegral_const, measure_univ, mul_one]
            rfl
          · exact hGm.comp (f := fun z : ℝ × (ℕ → ℝ) => (u, p, q, z.1)) (by fun_prop)
        · exact hGm.comp (f := fun z : ℝ × (ℕ → ℝ) => (u, p, z.1, z.2 0)) (by fun_prop)
      simp only [h2]
      exact lintegral_tilted (directed_unit _) (h.frame _ (directed_unit _))
        (F := fun n => spun (a d) (b d) d m F (struck A v (T u) n)) (hS.comp (by fun_prop))
    · exact hGm.comp (f := fun z : ℝ × (ℕ → ℝ) => (u, z.1, z.2 0, z.2 1)) (by fun_prop)
  · exact hGm.comp (f := fun z : ℝ × (ℕ → ℝ) => (z.1, z.2 0, z.2 1, z.2 2)) (by fun_prop)

theorem normSq_tilted' {a b d : Direction} (hd : UnitVec d) (h : Frame a b d) {μ : ℝ}
    (h1 : -1 ≤ μ) (h2 : μ ≤ 1) (u : ℝ) :
    normSq (tilted a b d μ u) = 1 ∧ cosAngle d (tilted a b d μ u) = μ := by
  have e : tilted a b d μ u = inFrame a b d ⟨μ, Real.sqrt (1 - μ ^ 2) * Real.cos (2 * Real.pi * u),
      Real.sqrt (1 - μ ^ 2) * Real.sin (2 * Real.pi * u)⟩ := by
    unfold tilted inFrame
    ext <;> simp only <;> ring
  rw [e]
  obtain ⟨h3, h4⟩ := normSq_inFrame hd h ⟨μ, Real.sqrt (1 - μ ^ 2) * Real.cos (2 * Real.pi * u),
      Real.sqrt (1 - μ ^ 2) * Real.sin (2 * Real.pi * u)⟩
  refine ⟨h3.trans ?_, h4⟩
  have hs := Real.sq_sqrt (show 0 ≤ 1 - μ ^ 2 by nlinarith)
  unfold normSq
  simp only
  linear_combination (Real.cos (2 * Real.pi * u) ^ 2 + Real.sin (2 * Real.pi * u) ^ 2) * hs +
    (1 - μ ^ 2) * Real.cos_sq_add_sin_sq (2 * Real.pi * u)

theorem normSq_tilted {a b d : Direction} (hd : UnitVec d) (h : Frame a b d) {μ : ℝ}
    (hμ : μ ∈ Ioo (-1 : ℝ) 1) (u : ℝ) :
    normSq (tilted a b d μ u) = 1 ∧ cosAngle d (tilted a b d μ u) = μ :=
  normSq_tilted' hd h hμ.1.le hμ.2.le u

/-- The atoms that a neutron meets, as velocities. -/
theorem lintegral_met {a b d : Direction} (hd : UnitVec d) (h : Frame a b d) {β v : ℝ} (hβ : 0 < β)
    {Q : Point → ℝ≥0∞} (hQ : Measurable Q) :
    ∫⁻ s in Ioi (0 : ℝ), ∫⁻ μ in Ioo (-1 : ℝ) 1,
        ENNReal.ofReal (maxwell β s / 2 * relativeSpeed v s μ) *
          ∫⁻ u, Q (combine s (tilted a b d μ u) 0 d) ∂uniform =
      ∫⁻ V, ENNReal.ofReal (gasDensity β V * Real.sqrt (normSq (combine 1 (combine v d 0 d) (-1) V))) *
        Q V ∂spaceVolume := by
  have hpi := Real.pi_pos
  set vd := combine v d 0 d with hvd
  set Ψ : Point → ℝ≥0∞ := fun V =>
    ENNReal.ofReal (gasDensity β V * Real.sqrt (normSq (combine 1 vd (-1) V))) * Q V with hΨ
  have hΨm : Measurable Ψ := by
    rw [hΨ]
    unfold gasDensity
    fun_prop
  change _ = ∫⁻ V, Ψ V ∂spaceVolume
  rw [lintegral_space hΨm, ← lintegral_const_mul' _ _ ENNReal.ofReal_ne_top]
  refine setLIntegral_congr_fun measurableSet_Ioi fun s hs => ?_
  have hs : 0 < s := hs
  have hm1 : Measurable fun n : Direction => Ψ (n.smul s) :=
    hΨm.comp (measurable_id.point_smul measurable_const)
  have h1 := lintegral_tilted hd h hm1
  have h2 := lintegral_cosine fun μ => ∫⁻ t, Ψ ((tilted a b d μ t).smul s) ∂uniform
  rw [h2] at h1
  rw [← h1, ← mul_assoc, ← mul_assoc, ← ENNReal.ofReal_mul (by positivity),
    ← ENNReal.ofReal_mul (by positivity), ← lintegral_const_mul' _ _ ENNReal.ofReal_ne_top]
  refine setLIntegral_congr_fun measurableSet_Ioo fun μ hμ => ?_
  have hm2 : Measurable fun u => Q (combine s (tilted a b d μ u) 0 d) := hQ.comp (by fun_prop)
  have e : ∀ u, Ψ ((tilted a b d μ u).smul s) =
      ENNReal.ofReal (β ^ 3 / (Real.pi * Real.sqrt Real.pi) * Real.exp (-(β ^ 2 * s ^ 2)) *
        relativeSpeed v s μ) * Q (combine s (tilted a b d μ u) 0 d) := by
    intro u
    obtain ⟨h3, h4⟩ := normSq_tilted hd h hμ u
    have e1 : (tilted a b d μ u).smul s = combine s (tilted a b d μ u) 0 d := by
      unfold Point.smul combine
      ext <;> simp only <;> ring
    have e2 : normSq (combine 1 vd (-1) (combine s (tilted a b d μ u) 0 d)) =
        v ^ 2 + s ^ 2 - 2 * v * s * μ := by
      have hd' := hd
      unfold UnitVec at hd'
      unfold cosAngle at h4
      unfold normSq at h3
      rw [hvd]
      unfold normSq combine
      simp only
      linear_combination v ^ 2 * hd' + s ^ 2 * h3 - 2 * v * s * h4
    rw [hΨ]
    simp only
    rw [← e1]
    unfold gasDensity relativeSpeed
    rw [normSq_smul, h3, mul_one, e1, e2]
  rw [lintegral_congr e, lintegral_const_mul _ hm2, ← mul_assoc, ← ENNReal.ofReal_mul (by positivity)]
  congr 2
  unfold maxwell
  have hsq : Real.sqrt Real.pi ≠ 0 := (Real.sqrt_pos.2 hpi).ne'
  rw [mul_pow]
  field_simp

/-- Mean relative speed as an integral over the velocities of the atoms. -/
theorem meanRelativeSpeed_gas {d a b : Direction} (hd : UnitVec d) (h : Frame a b d) {β v : ℝ}
    (hβ : 0 < β) (hv : 0 < v) :
    ∫⁻ V, ENNReal.ofReal (gasDensity β V *
      Real.sqrt (normSq (combine 1 (combine v d 0 d) (-1) V))) ∂spaceVolume =
      ENNReal.ofReal (meanRelativeSpeed β v) := by
  have e := lintegral_met hd h (v := v) hβ (Q := fun _ => 1) measurable_const
  simp only [lintegral_const, measure_univ, mul_one] at e
  rw [← e, lintegral_rate hβ hv]

/-- The probability that a neutron leaves in a given way, in terms of velocities. -/
theorem uniforms_leaving_gas (h : Frames a b) (A m : ℝ) {β speed : ℝ} (hβ : 0 < β) (hv : 0 < speed)
    {d : Direction} (hd : UnitVec d) {S : Set (Direction × ℝ)} (hS : MeasurableSet S)
    (h0 : ∀ n n', (n, (0 : ℝ)) ∈ S ↔ (n', (0 : ℝ)) ∈ S) :
    ENNReal.ofReal (meanRelativeSpeed β speed) *
        uniforms {us | ∃ n, ∃ z ∈ S, leaving a b A m β d speed n us = some z} =
      ∫⁻ V, ENNReal.ofReal (gasDensity β V *
          Real.sqrt (normSq (combine 1 (combine speed d 0 d) (-1) V))) *
        sphereMean (fun n => kept m (S.indicator fun _ => 1)
          (struck A (combine speed d 0 d) V n)) ∂spaceVolume := by
  have hF : Measurable (S.indicator fun _ => (1 : ℝ≥0∞)) := measurable_const.indicator hS
  have hk := measurable_kept m hF
  have hs := measurable_spun (a d) (b d) d m hF
  have hpos : 0 < meanRelativeSpeed β speed := by
    rw [meanRelativeSpeed_eq hβ hv]
    have := one_lt_adj (mul_pos hβ hv)
    positivity
  have h0' : ∀ n n', S.indicator (fun _ => (1 : ℝ≥0∞)) (n, 0) = S.indicator (fun _ => 1) (n', 0) := by
    intro n n'
    simp only [indicator, h0 n n']
  have e1 := lintegral_spun hd (h.frame d hd) A m speed hF h0'
    (w := fun x y => ENNReal.ofReal (β ^ 3 / (Real.pi * Real.sqrt Real.pi) *
      Real.exp (-(β ^ 2 * x)) * Real.sqrt y)) (by fun_prop)
  refine Eq.trans ?_ e1
  have hQ : Measurable fun V => sphereMean fun n => spun (a d) (b d) d m (S.indicator fun _ => 1)
      (struck A (combine speed d 0 d) V n) := by
    have e : ∀ V, (sphereMean fun n => spun (a d) (b d) d m (S.indicator fun _ => 1)
        (struck A (combine speed d 0 d) V n)) = ∫⁻ n, spun (a d) (b d) d m (S.indicator fun _ => 1)
        (struck A (combine speed d 0 d) V n) ∂sphereLaw := fun V =>
      (lintegral_sphereLaw (hs.comp (by fun_prop))).symm
    simp only [e]
    exact Measurable.lintegral_prod_right' (f := fun q : Point × Point =>
      spun (a d) (b d) d m (S.indicator fun _ => 1) (struck A (combine speed d 0 d) q.1 q.2))
      (hs.comp (by fun_prop))
  refine Eq.trans ?_ (lintegral_met hd (h.frame d hd) (v := speed) hβ hQ)
  rw [uniforms_leaving h A m hβ hv d hS, ← lintegral_const_mul' _ _ ENNReal.ofReal_ne_top]
  refine lintegral_congr fun s => ?_
  rw [← lintegral_const_mul' _ _ ENNReal.ofReal_ne_top]
  refine lintegral_congr fun μ => ?_
  rw [lintegral_departure h A m speed s μ hF, ← mul_assoc, ← ENNReal.ofReal_mul hpos.le]
  unfold metDensity
  rw [mul_div_cancel₀ _ hpos.ne']

end Minimc
