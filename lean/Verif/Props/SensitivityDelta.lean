import Verif.Props.Sensitivity
import Verif.Props.Acceptance

/-! # Property C50: effects of perturbations with delta tracking -/

namespace Minimc.Props

open Classical Spec

/-- What is added with delta tracking involves the majorant. -/
theorem mixture_stream_delta {p : Particle} {q : Perturbation} {m : Material} {f x rest M : ℝ}
    (h : InMixture p q m f x rest) (hM : m.getMicroscopicMajorant p = .ok M) (hpos : 0 < M) (d : ℝ) :
    q.stream .cellDeltaTracking p d = .ok (1 / M - d) := by
  obtain ⟨c, hc, hm⟩ := h.cell
  obtain ⟨l, r, n, σ, ha, hid, hσ, hx, hrest⟩ := h.entries
  have hdens : collisionDensity .cellDeltaTracking p = .ok M := by
    unfold collisionDensity
    rw [Particle.getCell_ok.2 hc]
    simp only [bind, Except.bind, hm]
    rw [hM]
    rfl
  have hany : m.afracs.any (fun e => e.1.id == q.nuclideId) = true := by
    rw [ha]
    simp [hid]
  unfold Perturbation.stream
  rw [Particle.getCell_ok.2 hc]
  simp only [bind, Except.bind, hm]
  rw [if_pos hany, hdens]
  simp only
  rw [if_neg hpos.ne']
  rfl

/-- **C50** With delta tracking, what is added for a flight that ends in a real collision is the
derivative of the logarithm of the density exactly when an equation holds, which involves how the
majorant changes with the cross section. -/
theorem C50_delta_real_iff {p : Particle} {q : Perturbation} {m : Material} {f x rest : ℝ}
    (h : InMixture p q m f x rest) {majorant : ℝ → ℝ} {slope : ℝ}
    (hM : m.getMicroscopicMajorant p = .ok (majorant x)) (hpos : 0 < majorant x)
    (hslope : HasDerivAt majorant slope x) (d : ℝ) :
    ∃ v, q.stream .cellDeltaTracking p d = .ok v ∧
      (HasDerivAt (fun y => Real.log (realPdf m.numberDensity (rest + f * y) (majorant y) d)) v x ↔
        f / (rest + f * x) - 1 / majorant x = (m.numberDensity * slope - 1) * d) := by
  refine ⟨_, mixture_stream_delta h hM hpos d, ?_⟩
  have hN := h.density
  have hS := h.positive
  have hlin : HasDerivAt (fun y : ℝ => rest + f * y) f x := by
    simpa using ((hasDerivAt_id x).const_mul f).const_add rest
  have hd : HasDerivAt (fun y => Real.log (realPdf m.numberDensity (rest + f * y) (majorant y) d))
      (f / (rest + f * x) - m.numberDensity * slope * d) x := by
    have hc : HasDerivAt (fun y => Real.log (m.numberDensity * (rest + f * y)) -
        m.numberDensity * majorant y * d)
        (m.numberDensity * f / (m.numberDensity * (rest + f * x)) - m.numberDensity * slope * d) x :=
      ((hlin.const_mul m.numberDensity).log (mul_pos hN hS).ne').sub
        ((hslope.const_mul m.numberDensity).mul_const d)
    rw [mul_div_mul_left _ _ hN.ne'] at hc
    refine hc.congr_of_eventuallyEq ?_
    have e1 : ∀ᶠ y in nhds x, 0 < majorant y := hslope.continuousAt.eventually (lt_mem_nhds hpos)
    have e2 : ∀ᶠ y in nhds x, 0 < rest + f * y := hlin.continuousAt.eventually (lt_mem_nhds hS)
    filter_upwards [e1, e2] with y h1 h2
    have : realPdf m.numberDensity (rest + f * y) (majorant y) d =
        m.numberDensity * (rest + f * y) * Real.exp (-(m.numberDensity * majorant y * d)) := by
      unfold realPdf
      rw [collisionPdf_eq]
      field_simp
    rw [this, Real.log_mul (mul_pos hN h2).ne' (Real.exp_pos _).ne', Real.log_exp]
    ring
  constructor
  · intro h'
    have := h'.unique hd
    linarith
  · intro h'
    have : 1 / majorant x - d = f / (rest + f * x) - m.numberDensity * slope * d := by linarith
    rw [this]
    exact hd

/-- **C50** The same for virtual collisions. -/
theorem C50_delta_virtual_iff {p : Particle} {q : Perturbation} {m : Material} {f x rest : ℝ}
    (h : InMixture p q m f x rest) {majorant : ℝ → ℝ} {slope : ℝ}
    (hM : m.getMicroscopicMajorant p = .ok (majorant x)) (hpos : rest + f * x < majorant x)
    (hslope : HasDerivAt majorant slope x) (d : ℝ) :
    ∃ v, q.stream .cellDeltaTracking p d = .ok v ∧
      (HasDerivAt (fun y => Real.log (virtualPdf m.numberDensity (rest + f * y) (majorant y) d)) v x ↔
        (slope - f) / (majorant x - (rest + f * x)) - 1 / majorant x =
          (m.numberDensity * slope - 1) * d) := by
  have hN := h.density
  have hS := h.positive
  have hMpos : 0 < majorant x := hS.trans hpos
  refine ⟨_, mixture_stream_delta h hM hMpos d, ?_⟩
  have hlin : HasDerivAt (fun y : ℝ => majorant y - (rest + f * y)) (slope - f) x := by
    have := hslope.fun_sub (((hasDerivAt_id x).const_mul f).const_add rest)
    rw [mul_one] at this
    exact this
  have hgap : 0 < majorant x - (rest + f * x) := sub_pos.2 hpos
  have hd : HasDerivAt (fun y => Real.log (virtualPdf m.numberDensity (rest + f * y) (majorant y) d))
      ((slope - f) / (majorant x - (rest + f * x)) - m.numberDensity * slope * d) x := by
    have hc : HasDerivAt (fun y => Real.log (m.numberDensity * (majorant y - (rest + f * y))) -
        m.numberDensity * majorant y * d)
        (m.numberDensity * (slope - f) / (m.numberDensity * (majorant x - (rest + f * x))) -
          m.numberDensity * slope * d) x :=
      ((hlin.const_mul m.numberDensity).log (mul_pos hN hgap).ne').sub
        ((hslope.const_mul m.numberDensity).mul_const d)
    rw [mul_div_mul_left _ _ hN.ne'] at hc
    refine hc.congr_of_eventuallyEq ?_
    have e1 : ∀ᶠ y in nhds x, 0 < majorant y := hslope.continuousAt.eventually (lt_mem_nhds hMpos)
    have e2 : ∀ᶠ y in nhds x, 0 < majorant y - (rest + f * y) :=
      hlin.continuousAt.eventually (lt_mem_nhds hgap)
    filter_upwards [e1, e2] with y h1 h2
    have : virtualPdf m.numberDensity (rest + f * y) (majorant y) d =
        m.numberDensity * (majorant y - (rest + f * y)) *
          Real.exp (-(m.numberDensity * majorant y * d)) := by
      unfold virtualPdf
      rw [collisionPdf_eq]
      field_simp
    rw [this, Real.log_mul (mul_pos hN h2).ne' (Real.exp_pos _).ne', Real.log_exp]
    ring
  constructor
  · intro h'
    have := h'.unique hd
    linarith
  · intro h'
    have : 1 / majorant x - d = (slope - f) / (majorant x - (rest + f * x)) -
        m.numberDensity * slope * d := by linarith
    rw [this]
    exact hd

/-- **C50** With delta tracking in a material of only the perturbed nuclide, of unit number density
and with a majorant that is and remains the cross section, what is added for a flight ending in a
collision is the derivative.  Missing from C50: everything else, for which the code is wrong (below). -/
theorem C50_delta_partial {p : Particle} {q : Perturbation} {m : Material} {x : ℝ}
    (h : InMixture p q m 1 x 0) (hM : m.getMicroscopicMajorant p = .ok x) (hN : m.numberDensity = 1)
    (d : ℝ) :
    ∃ v, q.stream .cellDeltaTracking p d = .ok v ∧
      HasDerivAt (fun y => Real.log (realPdf m.numberDensity y y d)) v x := by
  have hx : 0 < x := by simpa using h.positive
  obtain ⟨v, hv, hiff⟩ := C50_delta_real_iff h (majorant := fun y => y) hM hx (hasDerivAt_id x) d
  refine ⟨v, hv, ?_⟩
  have := hiff.2 (by rw [hN]; ring)
  simpa only [zero_add, one_mul] using this

/-- The code violates C50 with delta tracking if the majorant does not depend on the perturbed cross
section: even in a material of only the perturbed nuclide, it is right for no flight to a
real collision, and for flights of only one length to virtual ones. -/
theorem C50_delta_violated {p : Particle} {q : Perturbation} {m : Material} {x M : ℝ}
    (h : InMixture p q m 1 x 0) (hM : m.getMicroscopicMajorant p = .ok M) (hx : x < M) (d : ℝ) :
    ∃ v, q.stream .cellDeltaTracking p d = .ok v ∧
      (HasDerivAt (fun y => Real.log (realPdf m.numberDensity y M d)) v x → d = 1 / M - 1 / x ∧ d < 0) ∧
      (HasDerivAt (fun y => Real.log (virtualPdf m.numberDensity y M d)) v x →
        d = 1 / M + 1 / (M - x)) := by
  have hx0 : 0 < x := by simpa using h.positive
  have hM0 := hx0.trans hx
  obtain ⟨v, hv, h1⟩ := C50_delta_real_iff h (majorant := fun _ => M) hM hM0 (hasDerivAt_const x M) d
  obtain ⟨v', hv', h2⟩ := C50_delta_virtual_iff h (majorant := fun _ => M) hM (by simpa using hx)
    (hasDerivAt_const x M) d
  obtain rfl : v' = v := by
    rw [hv] at hv'
    exact (Except.ok.inj hv').symm
  simp only [zero_add, one_mul, mul_zero, zero_sub] at h1 h2
  refine ⟨v', hv, fun k => ?_, fun k => ?_⟩
  · have := h1.1 k
    have hlt : 1 / M < 1 / x := one_div_lt_one_div_of_lt hx0 hx
    exact ⟨by linarith, by linarith⟩
  · have := h2.1 k
    rw [neg_div] at this
    linarith

/-- Instance of `C50_delta_partial`. -/
example : ∃ v, absorberPerturbation.stream .cellDeltaTracking (inAbsorber 1) 3 = .ok v ∧
    HasDerivAt (fun y => Real.log (realPdf 1 y y 3)) v 2 := by
  refine C50_delta_partial (inAbsorber_mixture one_pos) ?_ rfl 3
  rw [(C23_weighted_mean _ _ (fun _ => 2)).2]
  · simp
  · intro e he
    rw [List.mem_singleton.1 he]
    exact absorber_majorant _ _ _ rfl

/-- Instance of `C50_delta_violated`: for no flight of the neutron that is being heated up is the value
right both for real and for virtual collisions, and never for real ones. -/
example {d : ℝ} (hd : 0 ≤ d) : ∃ v,
    (⟨3, "q", 0⟩ : Perturbation).stream .cellDeltaTracking heatedNeutron d = .ok v ∧
    ¬ HasDerivAt (fun y => Real.log (realPdf (1 / 1000) y 2 d)) v 1 ∧
    (d ≠ 3 / 2 → ¬ HasDerivAt (fun y => Real.log (virtualPdf (1 / 1000) y 2 d)) v 1) := by
  have h0 := heated_nuclide (x := 0) le_rfl (by norm_num)
  rw [if_pos (by norm_num)] at h0
  have hmix : InMixture heatedNeutron ⟨3, "q", 0⟩ ⟨"m", [(hotCapturer, 1)], 1 / 1000⟩ 1 1 0 :=
    ⟨⟨_, rfl, rfl⟩, ⟨[], [], hotCapturer, fun _ => 1, rfl, rfl, by
      intro e he
      rw [List.mem_singleton.1 he]
      exact h0.1, rfl, by simp⟩, by norm_num, by norm_num⟩
  obtain ⟨v, h1, h2, h3⟩ := C50_delta_violated hmix
    (heated_ratio (x := 0) le_rfl (by norm_num)).2 (by norm_num) d
  refine ⟨v, h1, fun h => ?_, fun hne h => hne ?_⟩
  · have := (h2 h).2
    linarith
  · rw [h3 h]
    norm_num

end Minimc.Props
