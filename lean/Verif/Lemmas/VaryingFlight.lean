import Verif.Spec.VaryingFlight
import Verif.Lemmas.Flight
import Mathlib.MeasureTheory.Function.JacobianOneDim
import Mathlib.MeasureTheory.Integral.DivergenceTheorem
import Mathlib.Topology.Order.Monotone

/-! # Lemmas about flights past tentative collisions -/

namespace Minimc.Spec

open MeasureTheory Finset

/-- The sequences that let a particle at distance `b` fly past distance `t`. -/
def freeFrom (r : ℝ → ℝ → ℝ) (M t b : ℝ) : Set (ℕ → ℝ) :=
  {us | ∀ k, b + passed M us (k + 1) ≤ t →
    r (b + passed M us k) (b + passed M us (k + 1)) ≤ us (2 * k + 1)}

theorem undisturbed_iff (r : ℝ → ℝ → ℝ) (M t : ℝ) :
    {us | Undisturbed r M us t} = freeFrom r M t 0 := by
  unfold freeFrom Undisturbed
  simp only [zero_add]

theorem measurable_passed (M : ℝ) (j : ℕ) : Measurable fun us => passed M us j := by
  unfold passed
  exact Finset.measurable_sum _ fun i _ => measurable_roundLength M i

/-- Jointly measurable in the distance and the sequence. -/
theorem measurableSet_freeFrom_prod {r : ℝ → ℝ → ℝ} (hr : Measurable fun q : ℝ × ℝ => r q.1 q.2)
    (M t : ℝ) : MeasurableSet {q : ℝ × (ℕ → ℝ) | q.2 ∈ freeFrom r M t q.1} := by
  have : {q : ℝ × (ℕ → ℝ) | q.2 ∈ freeFrom r M t q.1} =
      ⋂ k : ℕ, ({q : ℝ × (ℕ → ℝ) | t < q.1 + passed M q.2 (k + 1)} ∪
        {q : ℝ × (ℕ → ℝ) |
          r (q.1 + passed M q.2 k) (q.1 + passed M q.2 (k + 1)) ≤ q.2 (2 * k + 1)}) := by
    ext q
    simp only [freeFrom, Set.mem_ofPred_eq, Set.mem_iInter, Set.mem_union]
    refine forall_congr' fun k => ?_
    rw [← not_le, imp_iff_not_or]
  rw [this]
  have hp : ∀ j, Measurable fun q : ℝ × (ℕ → ℝ) => q.1 + passed M q.2 j := fun j =>
    measurable_fst.add ((measurable_passed M j).comp measurable_snd)
  refine MeasurableSet.iInter fun k => MeasurableSet.union ?_ ?_
  · exact measurableSet_lt measurable_const (hp _)
  · exact measurableSet_le (hr.comp ((hp k).prodMk (hp (k + 1))))
      ((measurable_pi_apply _).comp measurable_snd)

theorem measurableSet_freeFrom {r : ℝ → ℝ → ℝ} (hr : Measurable fun q : ℝ × ℝ => r q.1 q.2)
    (M t b : ℝ) : MeasurableSet (freeFrom r M t b) :=
  measurable_prodMk_left (x := b) (measurableSet_freeFrom_prod hr M t)

/-- The chance to fly from distance `b` past distance `t`. -/
noncomputable def chance (r : ℝ → ℝ → ℝ) (M t b : ℝ) : ℝ := (uniforms (freeFrom r M t b)).toReal

theorem chance_nonneg (r : ℝ → ℝ → ℝ) (M t b : ℝ) : 0 ≤ chance r M t b := ENNReal.toReal_nonneg

theorem chance_le_one (r : ℝ → ℝ → ℝ) (M t b : ℝ) : chance r M t b ≤ 1 := by
  have h : uniforms (freeFrom r M t b) ≤ 1 := prob_le_one
  exact ENNReal.toReal_mono ENNReal.one_ne_top h

theorem measurable_chance {r : ℝ → ℝ → ℝ} (hr : Measurable fun q : ℝ × ℝ => r q.1 q.2) (M t : ℝ) :
    Measurable (chance r M t) :=
  (measurable_measure_prodMk_left (measurableSet_freeFrom_prod hr M t)).ennreal_toReal

/-- Splitting off the first tentative flight. -/
theorem freeFrom_cons {r : ℝ → ℝ → ℝ} {M t b u v : ℝ} {w : ℕ → ℝ} :
    consSeq (u, consSeq (v, w)) ∈ freeFrom r M t b ↔
      (b + -Real.log (1 - u) / M ≤ t → r b (b + -Real.log (1 - u) / M) ≤ v) ∧
        w ∈ freeFrom r M t (b + -Real.log (1 - u) / M) := by
  set us := consSeq (u, consSeq (v, w)) with hus
  have h0 : us 0 = u := rfl
  have hs : ∀ n, us (n + 2) = w n := fun _ => rfl
  have hl0 : roundLength M us 0 = -Real.log (1 - u) / M := by
    unfold roundLength; rw [Nat.mul_zero, h0]
  have hls : ∀ j, roundLength M us (j + 1) = roundLength M w j := by
    intro j; unfold roundLength; rw [show 2 * (j + 1) = 2 * j + 2 by ring, hs]
  have hp : ∀ j, b + passed M us (j + 1) = b + -Real.log (1 - u) / M + passed M w j := by
    intro j
    unfold passed
    rw [Finset.sum_range_succ', hl0, Finset.sum_congr rfl fun j _ => hls j]
    ring
  have hp0 : b + passed M us 0 = b := by simp [passed]
  have hw0 : passed M w 0 = 0 := by simp [passed]
  constructor
  · intro h
    refine ⟨fun h1 => ?_, fun k h1 => ?_⟩
    · have h2 := h 0
      rw [hp, hp0, hw0, add_zero] at h2
      exact h2 h1
    · have h2 := h (k + 1)
      rw [hp, hp] at h2
      exact h2 h1
  · rintro ⟨h1, h2⟩ k
    cases k with
    | zero =>
      rw [hp, hp0, hw0, add_zero]
      exact h1
    | succ k =>
      rw [hp, hp]
      exact h2 k

/-- All numbers of a sequence are in the unit interval, almost surely. -/
theorem uniforms_unit : ∀ᵐ us ∂uniforms, ∀ n, us n ∈ Set.Ico (0 : ℝ) 1 := by
  rw [ae_all_iff]
  intro n
  have h : MeasurePreserving (Function.eval n) uniforms uniform :=
    measurePreserving_eval_infinitePi (fun _ : ℕ => uniform) n
  have h2 : ∀ᵐ u ∂uniform, u ∈ Set.Ico (0 : ℝ) 1 := ae_restrict_mem measurableSet_Ico
  exact h.quasiMeasurePreserving.ae h2

theorem passed_nonneg {M : ℝ} (hM : 0 < M) {us : ℕ → ℝ} (h : ∀ n, us n ∈ Set.Ico (0 : ℝ) 1) (j : ℕ) :
    0 ≤ passed M us j :=
  Finset.sum_nonneg fun i _ => length_nonneg hM (h (2 * i)).1 (h (2 * i)).2

theorem uniforms_beyond (r : ℝ → ℝ → ℝ) {M t b : ℝ} (hM : 0 < M) (hb : t < b) :
    uniforms (freeFrom r M t b) = 1 := by
  have : freeFrom r M t b =ᵐ[uniforms] Set.univ := by
    rw [Filter.eventuallyEq_univ]
    filter_upwards [uniforms_unit] with us hus k hk
    have := passed_nonneg hM hus (k + 1)
    linarith
  rw [measure_congr this, measure_univ]

theorem uniform_le_or {p : Prop} [Decidable p] {a : ℝ} (h0 : 0 ≤ a) :
    uniform {v | p → a ≤ v} = if p then ENNReal.ofReal (1 - a) else 1 := by
  split_ifs with h
  · rw [← uniform_Ici h0]
    congr 1
    ext v
    simp [h]
  · have : {v : ℝ | p → a ≤ v} = Set.univ := by
      ext v
      simp [h]
    rw [this, measure_univ]

theorem uniforms_freeFrom {r : ℝ → ℝ → ℝ} (hr : Measurable fun q : ℝ × ℝ => r q.1 q.2)
    (h0 : ∀ x y, 0 ≤ r x y) (h1 : ∀ x y, r x y ≤ 1) {M : ℝ} (hM : 0 < M) (t b : ℝ) :
    uniforms (freeFrom r M t b) = ∫⁻ u, ENNReal.ofReal
      (if b + -Real.log (1 - u) / M ≤ t then
        (1 - r b (b + -Real.log (1 - u) / M)) * chance r M t (b + -Real.log (1 - u) / M)
      else 1) ∂uniform := by
  have hm := measurableSet_freeFrom hr M t b
  have hm1 := measurable_consSeq hm
  conv_lhs => rw [← uniforms_cons, Measure.map_apply measurable_consSeq hm]
  rw [Measure.prod_apply hm1]
  refine lintegral_congr fun u => ?_
  have hm2 : MeasurableSet (Prod.mk u ⁻¹' (consSeq ⁻¹' freeFrom r M t b)) :=
    measurable_prodMk_left hm1
  conv_lhs => rw [← uniforms_cons, Measure.map_apply measurable_consSeq hm2]
  set l := -Real.log (1 - u) / M
  have hset : consSeq ⁻¹' (Prod.mk u ⁻¹' (consSeq ⁻¹' freeFrom r M t b)) =
      {v | b + l ≤ t → r b (b + l) ≤ v} ×ˢ freeFrom r M t (b + l) := by
    ext ⟨v, w⟩
    simp only [Set.mem_preimage, Set.mem_prod, Set.mem_ofPred_eq]
    rw [freeFrom_cons]
  rw [hset, Measure.prod_prod, uniform_le_or (h0 _ _)]
  split_ifs with h
  · rw [ENNReal.ofReal_mul (by linarith [h1 b (b + l)]), chance,
      ENNReal.ofReal_toReal (measure_ne_top _ _)]
  · rw [uniforms_beyond r hM (not_le.1 h), one_mul, ENNReal.ofReal_one]

/-- The first tentative flight, as an integral over the number that decides its length. -/
noncomputable def firstFlight (M t b : ℝ) (g : ℝ → ℝ) (u : ℝ) : ℝ :=
  if b + -Real.log (1 - u) / M ≤ t then g (b + -Real.log (1 - u) / M) else 1

theorem measurable_firstFlight {M t b : ℝ} {g : ℝ → ℝ} (hg : Measurable g) :
    Measurable (firstFlight M t b g) := by
  unfold firstFlight
  have h := measurable_const (a := b) |>.add (measurable_length M)
  exact Measurable.ite (measurableSet_le h measurable_const) (hg.comp h) measurable_const

theorem chance_firstFlight {r : ℝ → ℝ → ℝ} (hr : Measurable fun q : ℝ × ℝ => r q.1 q.2)
    (h0 : ∀ x y, 0 ≤ r x y) (h1 : ∀ x y, r x y ≤ 1) {M : ℝ} (hM : 0 < M) (t b : ℝ) :
    chance r M t b = ∫ u, firstFlight M t b (fun y => (1 - r b y) * chance r M t y) u ∂uniform := by
  have hm : Measurable fun y => (1 - r b y) * chance r M t y :=
    (measurable_const.sub (hr.comp (measurable_const.prodMk measurable_id))).mul
      (measurable_chance hr M t)
  rw [integral_eq_lintegral_of_nonneg_ae _ (measurable_firstFlight hm).aestronglyMeasurable]
  · conv_lhs => unfold chance
    rw [uniforms_freeFrom hr h0 h1 hM]
    rfl
  · refine Filter.Eventually.of_forall fun u => ?_
    simp only [firstFlight, Pi.zero_apply]
    split_ifs
    · exact mul_nonneg (by linarith [h1 b (b + -Real.log (1 - u) / M)]) (chance_nonneg _ _ _ _)
    · exact zero_le_one

theorem hasDerivAt_decay (M b y : ℝ) :
    HasDerivAt (fun y => Real.exp (-(M * (y - b)))) (-(M * Real.exp (-(M * (y - b))))) y := by
  have h1 : HasDerivAt (fun y : ℝ => y - b) 1 y := (hasDerivAt_id y).sub_const b
  have h2 : HasDerivAt (fun y : ℝ => -(M * (y - b))) (-(M * 1)) y := (h1.const_mul M).neg
  have h3 := h2.exp
  have h4 : Real.exp (-(M * (y - b))) * -(M * 1) = -(M * Real.exp (-(M * (y - b)))) := by ring
  rw [h4] at h3
  exact h3

/-- The same, as an integral over the length. -/
theorem integral_firstFlight {M t b : ℝ} (hM : 0 < M) (hb : b ≤ t) {g : ℝ → ℝ} (hg : Measurable g)
    {C : ℝ} (hC : ∀ y, |g y| ≤ C) :
    ∫ u, firstFlight M t b g u ∂uniform =
      Real.exp (-(M * (t - b))) + ∫ y in b..t, M * Real.exp (-(M * (y - b))) * g y := by
  set c := 1 - Real.exp (-(M * (t - b))) with hc
  have hMt : 0 ≤ M * (t - b) := mul_nonneg hM.le (by linarith)
  have hc0 : 0 ≤ c := by
    have := Real.exp_le_one_iff.2 (by linarith : -(M * (t - b)) ≤ 0)
    linarith
  have hc1 : c < 1 := by
    have := Real.exp_pos (-(M * (t - b)))
    linarith
  have hint : ∀ s : Set ℝ, s ⊆ Set.Ico 0 1 → IntegrableOn (firstFlight M t b g) s := by
    intro s hs
    have : Integrable (firstFlight M t b g) uniform := by
      refine Integrable.of_bound (C := max C 1) (measurable_firstFlight hg).aestronglyMeasurable ?_
      refine Filter.Eventually.of_forall fun u => ?_
      rw [Real.norm_eq_abs]
      unfold firstFlight
      split_ifs
      · exact (hC _).trans (le_max_left _ _)
      · rw [abs_one]; exact le_max_right _ _
    exact IntegrableOn.mono_set this hs
  have hsplit : Set.Ico (0 : ℝ) 1 = Set.Icc 0 c ∪ Set.Ioo c 1 := by
    ext u
    simp only [Set.mem_Ico, Set.mem_union, Set.mem_Icc, Set.mem_Ioo]
    constructor
    · rintro ⟨h2, h3⟩
      rcases le_or_gt u c with h | h
      · exact Or.inl ⟨h2, h⟩
      · exact Or.inr ⟨h, h3⟩
    · rintro (⟨h2, h3⟩ | ⟨h2, h3⟩)
      · exact ⟨h2, h3.trans_lt hc1⟩
      · exact ⟨hc0.trans h2.le, h3⟩
  have hlen : ∀ u < 1, (b + -Real.log (1 - u) / M ≤ t ↔ u ≤ c) := by
    intro u hu
    have := lt_length_iff (t := t - b) hM hu
    rw [← not_iff_not, not_le, not_le]
    constructor
    · intro h; exact this.1 (by linarith)
    · intro h; linarith [this.2 h]
  unfold uniform
  rw [hsplit, setIntegral_union _ measurableSet_Ioo
    (hint _ fun u hu => ⟨hu.1, hu.2.trans_lt hc1⟩) (hint _ fun u hu => ⟨hc0.trans hu.1.le, hu.2⟩)]
  · have e2 : ∫ u in Set.Ioo c 1, firstFlight M t b g u = Real.exp (-(M * (t - b))) := by
      have : ∫ u in Set.Ioo c 1, firstFlight M t b g u = ∫ _u in Set.Ioo c 1, (1 : ℝ) := by
        refine setIntegral_congr_fun measurableSet_Ioo fun u hu => ?_
        unfold firstFlight
        exact if_neg fun h => absurd ((hlen u hu.2).1 h) (not_le.2 hu.1)
      rw [this]
      simp only [integral_const, smul_eq_mul, mul_one, Measure.real, Measure.restrict_apply_univ,
        Real.volume_Ioo]
      rw [ENNReal.toReal_ofReal (by linarith), hc]
      ring
    set f : ℝ → ℝ := fun y => 1 - Real.exp (-(M * (y - b))) with hf
    have himage : f '' Set.Icc b t = Set.Icc 0 c := by
      ext u
      simp only [Set.mem_image, Set.mem_Icc]
      constructor
      · rintro ⟨y, ⟨h2, h3⟩, rfl⟩
        have h4 : Real.exp (-(M * (y - b))) ≤ 1 :=
          Real.exp_le_one_iff.2 (by nlinarith)
        have h5 : Real.exp (-(M * (t - b))) ≤ Real.exp (-(M * (y - b))) :=
          Real.exp_le_exp.2 (by nlinarith)
        exact ⟨by simp only [hf]; linarith, by simp only [hf, hc]; linarith⟩
      · rintro ⟨h2, h3⟩
        have hu : u < 1 := h3.trans_lt hc1
        refine ⟨b + -Real.log (1 - u) / M, ⟨?_, (hlen u hu).2 h3⟩, ?_⟩
        · linarith [length_nonneg hM h2 hu]
        · simp only [hf]
          rw [show -(M * (b + -Real.log (1 - u) / M - b)) = Real.log (1 - u) by field_simp; ring,
            Real.exp_log (by linarith)]
          ring
    have hderiv : ∀ y ∈ Set.Icc b t, HasDerivWithinAt f (M * Real.exp (-(M * (y - b))))
        (Set.Icc b t) y := by
      intro y _
      have h3 := (hasDerivAt_decay M b y).const_sub 1
      rw [neg_neg] at h3
      exact h3.hasDerivWithinAt
    have hinj : Set.InjOn f (Set.Icc b t) := by
      intro x _ y _ hxy
      have h2 : Real.exp (-(M * (x - b))) = Real.exp (-(M * (y - b))) := by
        simp only [hf] at hxy
        linarith
      have h3 := Real.exp_injective h2
      have h4 : M * (x - y) = 0 := by linarith
      rcases mul_eq_zero.1 h4 with h5 | h5
      · exact absurd h5 hM.ne'
      · linarith
    have e1 : ∫ u in Set.Icc 0 c, firstFlight M t b g u =
        ∫ y in b..t, M * Real.exp (-(M * (y - b))) * g y := by
      rw [← himage, integral_image_eq_integral_abs_deriv_smul measurableSet_Icc hderiv hinj,
        intervalIntegral.integral_of_le hb, ← integral_Icc_eq_integral_Ioc]
      refine setIntegral_congr_fun measurableSet_Icc fun y hy => ?_
      have hfy : b + -Real.log (1 - f y) / M = y := by
        simp only [hf]
        rw [sub_sub_cancel, Real.log_exp]
        field_simp
        ring
      simp only [smul_eq_mul]
      rw [abs_of_pos (mul_pos hM (Real.exp_pos _))]
      congr 1
      unfold firstFlight
      rw [hfy, if_pos hy.2]
    rw [e1, e2, add_comm]
  · rw [Set.disjoint_left]
    intro u h2 h3
    exact absurd h2.2 (not_le.2 h3.1)

/-- The equation that determines the chance. -/
theorem chance_equation {r : ℝ → ℝ → ℝ} (hr : Measurable fun q : ℝ × ℝ => r q.1 q.2)
    (h0 : ∀ x y, 0 ≤ r x y) (h1 : ∀ x y, r x y ≤ 1) {M : ℝ} (hM : 0 < M) {t b : ℝ} (hb : b ≤ t) :
    chance r M t b = Real.exp (-(M * (t - b))) +
      ∫ y in b..t, M * Real.exp (-(M * (y - b))) * ((1 - r b y) * chance r M t y) := by
  rw [chance_firstFlight hr h0 h1 hM, integral_firstFlight hM hb (C := 1)]
  · exact (measurable_const.sub (hr.comp (measurable_const.prodMk measurable_id))).mul
      (measurable_chance hr M t)
  · intro y
    rw [abs_mul, abs_of_nonneg (chance_nonneg _ _ _ _), abs_of_nonneg (by linarith [h1 b y])]
    exact mul_le_one₀ (by linarith [h0 b y]) (chance_nonneg _ _ _ _) (chance_le_one _ _ _ _)

theorem integral_rate {M t b : ℝ} :
    ∫ y in b..t, M * Real.exp (-(M * (y - b))) = 1 - Real.exp (-(M * (t - b))) := by
  have hderiv : ∀ y ∈ Set.uIcc b t, HasDerivAt (fun y => -Real.exp (-(M * (y - b))))
      (M * Real.exp (-(M * (y - b)))) y := by
    intro y _
    have h3 := (hasDerivAt_decay M b y).neg
    rw [neg_neg] at h3
    exact h3
  rw [intervalIntegral.integral_eq_sub_of_hasDerivAt hderiv
    (Continuous.intervalIntegrable (by fun_prop) _ _)]
  simp
  ring

/-- A function that is nowhere below its mean over the first tentative flight is not negative. -/
theorem nonneg_of_mean {M t b₀ : ℝ} (hM : 0 < M) {h : ℝ → ℝ} {κ : ℝ → ℝ → ℝ} {C : ℝ}
    (hC : ∀ b ∈ Set.Icc b₀ t, -C ≤ h b) (hC0 : 0 ≤ C)
    (hκ0 : ∀ x y, 0 ≤ κ x y) (hκ1 : ∀ x y, κ x y ≤ 1)
    (hint : ∀ b ∈ Set.Icc b₀ t, IntervalIntegrable
      (fun y => M * Real.exp (-(M * (y - b))) * (κ b y * h y)) volume b t)
    (hge : ∀ b ∈ Set.Icc b₀ t,
      ∫ y in b..t, M * Real.exp (-(M * (y - b))) * (κ b y * h y) ≤ h b) :
    ∀ b ∈ Set.Icc b₀ t, 0 ≤ h b := by
  intro b hb
  set c := 1 - Real.exp (-(M * (t - b₀))) with hc
  have hbt : b₀ ≤ t := hb.1.trans hb.2
  have hc0 : 0 ≤ c := by
    have := Real.exp_le_one_iff.2 (by nlinarith : -(M * (t - b₀)) ≤ 0)
    linarith
  have hc1 : c < 1 := by
    have := Real.exp_pos (-(M * (t - b₀)))
    linarith
  have key : ∀ n : ℕ, ∀ b ∈ Set.Icc b₀ t, -(C * c ^ n) ≤ h b := by
    intro n
    induction n with
    | zero => intro b hb; simpa using hC b hb
    | succ n ih =>
      intro b hb
      have hD : 0 ≤ C * c ^ n := mul_nonneg hC0 (pow_nonneg hc0 n)
      refine le_trans ?_ (hge b hb)
      have h2 : ∫ y in b..t, M * Real.exp (-(M * (y - b))) * -(C * c ^ n) ≤
          ∫ y in b..t, M * Real.exp (-(M * (y - b))) * (κ b y * h y) := by
        refine intervalIntegral.integral_mono_on hb.2
          (Continuous.intervalIntegrable (by fun_prop) _ _) (hint b hb) fun y hy => ?_
        refine mul_le_mul_of_nonneg_left ?_ (mul_pos hM (Real.exp_pos _)).le
        have h3 := ih y ⟨hb.1.trans hy.1, hy.2⟩
        have h4 : κ b y * -(C * c ^ n) ≤ κ b y * h y := mul_le_mul_of_nonneg_left h3 (hκ0 b y)
        have h5 : κ b y * (C * c ^ n) ≤ C * c ^ n := mul_le_of_le_one_left hD (hκ1 b y)
        linarith
      rw [intervalIntegral.integral_mul_const, integral_rate] at h2
      refine le_trans ?_ h2
      have h3 : 1 - Real.exp (-(M * (t - b))) ≤ c := by
        have : Real.exp (-(M * (t - b₀))) ≤ Real.exp (-(M * (t - b))) :=
          Real.exp_le_exp.2 (by nlinarith [hb.1])
        linarith
      have h4 := mul_le_mul_of_nonneg_right h3 hD
      rw [pow_succ]
      linarith
  have hlim := (tendsto_pow_atTop_nhds_zero_of_lt_one hc0 hc1).const_mul (-C)
  rw [mul_zero] at hlim
  refine le_of_tendsto' hlim fun n => ?_
  have := key n b hb
  linarith

theorem integrable_weighted {M t b : ℝ} {f : ℝ → ℝ} (hf : Measurable f) {C : ℝ} (hbt : b ≤ t)
    (hC : ∀ y ∈ Set.Icc b t, |f y| ≤ C) :
    IntervalIntegrable (fun y => M * Real.exp (-(M * (y - b))) * f y) volume b t := by
  have h1 : IntervalIntegrable f volume b t := by
    rw [intervalIntegrable_iff_integrableOn_Icc_of_le hbt]
    refine Measure.integrableOn_of_bounded (M := C) ?_ hf.aestronglyMeasurable ?_
    · simp
    · exact (ae_restrict_iff' measurableSet_Icc).2 (Filter.Eventually.of_forall fun y hy => by
        rw [Real.norm_eq_abs]; exact hC y hy)
  exact h1.continuousOn_mul (by fun_prop)

/-- What is at most its mean over the first tentative flight is at most the chance. -/
theorem le_chance {r : ℝ → ℝ → ℝ} (hr : Measurable fun q : ℝ × ℝ => r q.1 q.2)
    (h0 : ∀ x y, 0 ≤ r x y) (h1 : ∀ x y, r x y ≤ 1) {M : ℝ} (hM : 0 < M) {t b₀ : ℝ} {f : ℝ → ℝ}
    (hf : Measurable f) {C : ℝ} (hC : ∀ y ∈ Set.Icc b₀ t, |f y| ≤ C)
    (hle : ∀ b ∈ Set.Icc b₀ t, f b ≤ Real.exp (-(M * (t - b))) +
      ∫ y in b..t, M * Real.exp (-(M * (y - b))) * ((1 - r b y) * f y)) :
    ∀ b ∈ Set.Icc b₀ t, f b ≤ chance r M t b := by
  intro b hb
  have hrm : ∀ b, Measurable fun y => 1 - r b y := fun b =>
    measurable_const.sub (hr.comp (measurable_const.prodMk measurable_id))
  have hi : ∀ b ∈ Set.Icc b₀ t, IntervalIntegrable
      (fun y => M * Real.exp (-(M * (y - b))) * ((1 - r b y) * f y)) volume b t := by
    intro b hb
    refine integrable_weighted ((hrm b).mul hf) (C := C) hb.2 fun y hy => ?_
    rw [abs_mul, abs_of_nonneg (by linarith [h1 b y])]
    exact (mul_le_of_le_one_left (abs_nonneg _) (by linarith [h0 b y])).trans
      (hC y ⟨hb.1.trans hy.1, hy.2⟩)
  have hj : ∀ b ∈ Set.Icc b₀ t, IntervalIntegrable
      (fun y => M * Real.exp (-(M * (y - b))) * ((1 - r b y) * chance r M t y)) volume b t := by
    intro b hb
    refine integrable_weighted ((hrm b).mul (measurable_chance hr M t)) (C := 1) hb.2 fun y hy => ?_
    rw [abs_mul, abs_of_nonneg (by linarith [h1 b y]), abs_of_nonneg (chance_nonneg _ _ _ _)]
    exact mul_le_one₀ (by linarith [h0 b y]) (chance_nonneg _ _ _ _) (chance_le_one _ _ _ _)
  have he : ∀ b, (fun y => M * Real.exp (-(M * (y - b))) * ((1 - r b y) * (chance r M t y - f y))) =
      fun y => M * Real.exp (-(M * (y - b))) * ((1 - r b y) * chance r M t y) -
        M * Real.exp (-(M * (y - b))) * ((1 - r b y) * f y) := by
    intro b
    funext y
    ring
  have h := nonneg_of_mean (M := M) (t := t) (b₀ := b₀) hM (h := fun b => chance r M t b - f b)
    (κ := fun x y => 1 - r x y) (C := max C 0) ?_ (le_max_right _ _) (fun x y => by linarith [h1 x y])
    (fun x y => by linarith [h0 x y]) ?_ ?_ b hb
  · simpa using h
  · intro b hb
    have h2 := le_max_left C 0
    have h3 := (le_abs_self (f b)).trans (hC b hb)
    have h4 := chance_nonneg r M t b
    linarith
  · intro b hb
    rw [he]
    exact (hj b hb).sub (hi b hb)
  · intro b hb
    rw [he, intervalIntegral.integral_sub (hj b hb) (hi b hb)]
    have h2 := chance_equation hr h0 h1 hM hb.2
    have h3 := hle b hb
    linarith

/-- What is at least its mean over the first tentative flight is at least the chance. -/
theorem chance_le {r : ℝ → ℝ → ℝ} (hr : Measurable fun q : ℝ × ℝ => r q.1 q.2)
    (h0 : ∀ x y, 0 ≤ r x y) (h1 : ∀ x y, r x y ≤ 1) {M : ℝ} (hM : 0 < M) {t b₀ : ℝ} {f : ℝ → ℝ}
    (hf : Measurable f) {C : ℝ} (hC : ∀ y ∈ Set.Icc b₀ t, |f y| ≤ C)
    (hge : ∀ b ∈ Set.Icc b₀ t, Real.exp (-(M * (t - b))) +
      ∫ y in b..t, M * Real.exp (-(M * (y - b))) * ((1 - r b y) * f y) ≤ f b) :
    ∀ b ∈ Set.Icc b₀ t, chance r M t b ≤ f b := by
  intro b hb
  have hrm : ∀ b, Measurable fun y => 1 - r b y := fun b =>
    measurable_const.sub (hr.comp (measurable_const.prodMk measurable_id))
  have hi : ∀ b ∈ Set.Icc b₀ t, IntervalIntegrable
      (fun y => M * Real.exp (-(M * (y - b))) * ((1 - r b y) * f y)) volume b t := by
    intro b hb
    refine integrable_weighted ((hrm b).mul hf) (C := C) hb.2 fun y hy => ?_
    rw [abs_mul, abs_of_nonneg (by linarith [h1 b y])]
    exact (mul_le_of_le_one_left (abs_nonneg _) (by linarith [h0 b y])).trans
      (hC y ⟨hb.1.trans hy.1, hy.2⟩)
  have hj : ∀ b ∈ Set.Icc b₀ t, IntervalIntegrable
      (fun y => M * Real.exp (-(M * (y - b))) * ((1 - r b y) * chance r M t y)) volume b t := by
    intro b hb
    refine integrable_weighted ((hrm b).mul (measurable_chance hr M t)) (C := 1) hb.2 fun y hy => ?_
    rw [abs_mul, abs_of_nonneg (by linarith [h1 b y]), abs_of_nonneg (chance_nonneg _ _ _ _)]
    exact mul_le_one₀ (by linarith [h0 b y]) (chance_nonneg _ _ _ _) (chance_le_one _ _ _ _)
  have he : ∀ b, (fun y => M * Real.exp (-(M * (y - b))) * ((1 - r b y) * (f y - chance r M t y))) =
      fun y => M * Real.exp (-(M * (y - b))) * ((1 - r b y) * f y) -
        M * Real.exp (-(M * (y - b))) * ((1 - r b y) * chance r M t y) := by
    intro b
    funext y
    ring
  have h := nonneg_of_mean (M := M) (t := t) (b₀ := b₀) hM (h := fun b => f b - chance r M t b)
    (κ := fun x y => 1 - r x y) (C := max C 0 + 1) ?_ (by positivity)
    (fun x y => by linarith [h1 x y]) (fun x y => by linarith [h0 x y]) ?_ ?_ b hb
  · simpa using h
  · intro b hb
    have h2 := le_max_left C 0
    have h3 := (abs_le.1 (hC b hb)).1
    have h4 := chance_le_one r M t b
    linarith
  · intro b hb
    rw [he]
    exact (hi b hb).sub (hj b hb)
  · intro b hb
    rw [he, intervalIntegral.integral_sub (hi b hb) (hj b hb)]
    have h2 := chance_equation hr h0 h1 hM hb.2
    have h3 := hge b hb
    linarith

/-- The chance by the law of attenuation. -/
noncomputable def attenuated (a : ℝ → ℝ) (M t b : ℝ) : ℝ := Real.exp (-(M * ∫ x in b..t, a x))

theorem ratio_integrable {a : ℝ → ℝ} (ha : Measurable a) (h0 : ∀ x, 0 ≤ a x) (h1 : ∀ x, a x ≤ 1)
    (x y : ℝ) : IntervalIntegrable a volume x y := by
  rw [intervalIntegrable_iff]
  refine Measure.integrableOn_of_bounded (M := 1) (by simp) ha.aestronglyMeasurable ?_
  refine Filter.Eventually.of_forall fun z => ?_
  rw [Real.norm_eq_abs, abs_of_nonneg (h0 z)]
  exact h1 z

theorem continuous_attenuated {a : ℝ → ℝ} (ha : Measurable a) (h0 : ∀ x, 0 ≤ a x)
    (h1 : ∀ x, a x ≤ 1) (M t : ℝ) : _root_.Continuous (attenuated a M t) := by
  have h2 := intervalIntegral.continuous_primitive (ratio_integrable ha h0 h1) t
  have h3 : attenuated a M t = fun b => Real.exp (M * ∫ x in t..b, a x) := by
    funext b
    unfold attenuated
    rw [intervalIntegral.integral_symm]
    congr 1
    ring
  rw [h3]
  fun_prop

theorem attenuated_bounds {a : ℝ → ℝ} (h0 : ∀ x, 0 ≤ a x) {M t b : ℝ} (hM : 0 < M) (hb : b ≤ t) :
    |attenuated a M t b| ≤ 1 := by
  unfold attenuated
  rw [abs_of_pos (Real.exp_pos _), Real.exp_le_one_iff]
  have h2 : 0 ≤ ∫ x in b..t, a x := intervalIntegral.integral_nonneg hb fun x _ => h0 x
  have := mul_nonneg hM.le h2
  linarith

theorem attenuated_equation {a : ℝ → ℝ} (ha : Measurable a) (h0 : ∀ x, 0 ≤ a x)
    (h1 : ∀ x, a x ≤ 1) (hd : {x | ¬ ContinuousAt a x}.Countable) {M t b : ℝ} (hM : 0 < M)
    (hb : b ≤ t) :
    attenuated a M t b = Real.exp (-(M * (t - b))) +
      ∫ y in b..t, M * Real.exp (-(M * (y - b))) * ((1 - a y) * attenuated a M t y) := by
  have hcont := continuous_attenuated ha h0 h1 M t
  have hderiv : ∀ y ∈ Set.Ioo b t \ {x | ¬ ContinuousAt a x}, HasDerivAt
      (fun y => -(Real.exp (-(M * (y - b))) * attenuated a M t y))
      (M * Real.exp (-(M * (y - b))) * ((1 - a y) * attenuated a M t y)) y := by
    rintro y ⟨_, hy⟩
    have hy : ContinuousAt a y := not_not.1 hy
    have h2 : HasDerivAt (fun y => ∫ x in y..t, a x) (-a y) y :=
      intervalIntegral.integral_hasDerivAt_left (ratio_integrable ha h0 h1 y t)
        (ha.stronglyMeasurable.stronglyMeasurableAtFilter) hy
    have h3 : HasDerivAt (attenuated a M t) (attenuated a M t y * -(M * -a y)) y :=
      ((h2.const_mul M).neg).exp
    have h4 := ((hasDerivAt_decay M b y).mul h3).neg
    have h5 : -(-(M * Real.exp (-(M * (y - b)))) * attenuated a M t y +
        Real.exp (-(M * (y - b))) * (attenuated a M t y * -(M * -a y))) =
        M * Real.exp (-(M * (y - b))) * ((1 - a y) * attenuated a M t y) := by ring
    rw [h5] at h4
    exact h4
  rw [integral_eq_of_hasDerivAt_off_countable_of_le _ _ hb hd
    (Continuous.continuousOn (by fun_prop)) hderiv]
  · have : attenuated a M t t = 1 := by simp [attenuated]
    rw [this, sub_self, mul_zero, neg_zero, Real.exp_zero]
    ring
  · refine integrable_weighted (C := 1) (((measurable_const.sub ha)).mul hcont.measurable) hb
      fun y hy => ?_
    rw [abs_mul, abs_of_nonneg (by linarith [h1 y])]
    exact mul_le_one₀ (by linarith [h0 y]) (abs_nonneg _) (attenuated_bounds h0 hM hy.2)

section
variable {a : ℝ → ℝ} (ha : Measurable a) (h0 : ∀ x, 0 ≤ a x) (h1 : ∀ x, a x ≤ 1) {M : ℝ} (hM : 0 < M)
  {t : ℝ}
include ha h0 h1 hM

theorem integrable_attenuated (g : ℝ → ℝ) (hg : Measurable g) (hg1 : ∀ y, |g y| ≤ 1) {b : ℝ}
    (hb : b ≤ t) : IntervalIntegrable
      (fun y => M * Real.exp (-(M * (y - b))) * (g y * attenuated a M t y)) volume b t := by
  refine integrable_weighted (C := 1) (hg.mul (continuous_attenuated ha h0 h1 M t).measurable) hb
    fun y hy => ?_
  rw [abs_mul]
  exact mul_le_one₀ (hg1 y) (abs_nonneg _) (attenuated_bounds h0 hM hy.2)

theorem integral_attenuated_le {g k : ℝ → ℝ} (hg : Measurable g) (hk : Measurable k)
    (hg1 : ∀ y, |g y| ≤ 1) (hk1 : ∀ y, |k y| ≤ 1) {b : ℝ} (hb : b ≤ t)
    (hgk : ∀ y ∈ Set.Icc b t, g y ≤ k y) :
    ∫ y in b..t, M * Real.exp (-(M * (y - b))) * (g y * attenuated a M t y) ≤
      ∫ y in b..t, M * Real.exp (-(M * (y - b))) * (k y * attenuated a M t y) := by
  refine intervalIntegral.integral_mono_on hb (integrable_attenuated ha h0 h1 hM g hg hg1 hb)
    (integrable_attenuated ha h0 h1 hM k hk hk1 hb) fun y hy => ?_
  refine mul_le_mul_of_nonneg_left ?_ (mul_pos hM (Real.exp_pos _)).le
  exact mul_le_mul_of_nonneg_right (hgk y hy) (Real.exp_pos _).le

theorem unit_rest (y : ℝ) : |1 - a y| ≤ 1 := by
  have := ha
  have := hM
  rw [abs_of_nonneg (by linarith [h1 y])]
  linarith [h0 y]

theorem attenuated_le_chance (hd : {x | ¬ ContinuousAt a x}.Countable) {b₀ : ℝ}
    (hup : MonotoneOn a (Set.Icc b₀ t)) :
    ∀ b ∈ Set.Icc b₀ t, attenuated a M t b ≤ chance (fun x _ => a x) M t b := by
  refine le_chance (ha.comp measurable_fst) (fun x _ => h0 x) (fun x _ => h1 x) hM
    (continuous_attenuated ha h0 h1 M t).measurable (C := 1)
    (fun y hy => attenuated_bounds h0 hM hy.2) fun b hb => ?_
  rw [attenuated_equation ha h0 h1 hd hM hb.2]
  have := integral_attenuated_le ha h0 h1 hM (t := t) (g := fun y => 1 - a y)
    (k := fun _ => 1 - a b) (measurable_const.sub ha) measurable_const (unit_rest ha h0 h1 hM)
    (fun _ => unit_rest ha h0 h1 hM b) hb.2 fun y hy => by
      have := hup hb ⟨hb.1.trans hy.1, hy.2⟩ hy.1
      linarith
  linarith

theorem chance_le_attenuated (hd : {x | ¬ ContinuousAt a x}.Countable) {b₀ : ℝ}
    (hdown : AntitoneOn a (Set.Icc b₀ t)) :
    ∀ b ∈ Set.Icc b₀ t, chance (fun x _ => a x) M t b ≤ attenuated a M t b := by
  refine chance_le (ha.comp measurable_fst) (fun x _ => h0 x) (fun x _ => h1 x) hM
    (continuous_attenuated ha h0 h1 M t).measurable (C := 1)
    (fun y hy => attenuated_bounds h0 hM hy.2) fun b hb => ?_
  rw [attenuated_equation ha h0 h1 hd hM hb.2]
  have := integral_attenuated_le ha h0 h1 hM (t := t) (k := fun y => 1 - a y)
    (g := fun _ => 1 - a b) measurable_const (measurable_const.sub ha)
    (fun _ => unit_rest ha h0 h1 hM b) (unit_rest ha h0 h1 hM) hb.2 fun y hy => by
      have := hdown hb ⟨hb.1.trans hy.1, hy.2⟩ hy.1
      linarith
  linarith

/-- A growing ratio makes a difference. -/
theorem attenuated_lt_chance (hd : {x | ¬ ContinuousAt a x}.Countable) {b x : ℝ}
    (hup : MonotoneOn a (Set.Icc b t)) (hbx : b ≤ x) (hxt : x < t) (hlt : a b < a x) :
    attenuated a M t b < chance (fun x _ => a x) M t b := by
  have hb : b ≤ t := hbx.trans hxt.le
  have hr : Measurable fun q : ℝ × ℝ => (fun x _ => a x) q.1 q.2 := ha.comp measurable_fst
  rw [chance_equation hr (fun x _ => h0 x) (fun x _ => h1 x) hM hb]
  have hle := attenuated_le_chance ha h0 h1 hM hd hup
  have hi1 := integrable_attenuated ha h0 h1 hM (t := t) (fun _ => 1 - a b) measurable_const
    (fun _ => unit_rest ha h0 h1 hM b) hb
  have hi2 := integrable_attenuated ha h0 h1 hM (t := t) (fun y => 1 - a y) (measurable_const.sub ha)
    (unit_rest ha h0 h1 hM) hb
  have hi3 : IntervalIntegrable (fun y => M * Real.exp (-(M * (y - b))) *
      ((1 - a b) * chance (fun x _ => a x) M t y)) volume b t := by
    refine integrable_weighted (C := 1) (measurable_const.mul (measurable_chance hr M t)) hb
      fun y _ => ?_
    rw [abs_mul, abs_of_nonneg (chance_nonneg _ _ _ _)]
    exact mul_le_one₀ (unit_rest ha h0 h1 hM b) (chance_nonneg _ _ _ _) (chance_le_one _ _ _ _)
  have h2 : ∫ y in b..t, M * Real.exp (-(M * (y - b))) * ((1 - a b) * attenuated a M t y) ≤
      ∫ y in b..t, M * Real.exp (-(M * (y - b))) * ((1 - a b) * chance (fun x _ => a x) M t y) := by
    refine intervalIntegral.integral_mono_on hb hi1 hi3 fun y hy => ?_
    refine mul_le_mul_of_nonneg_left ?_ (mul_pos hM (Real.exp_pos _)).le
    exact mul_le_mul_of_nonneg_left (hle y hy) (by linarith [h1 b])
  set F : ℝ → ℝ := fun y => M * Real.exp (-(M * (y - b))) * ((1 - a b) * attenuated a M t y) -
    M * Real.exp (-(M * (y - b))) * ((1 - a y) * attenuated a M t y) with hF
  have hFi : IntervalIntegrable F volume b t := hi1.sub hi2
  have hFe : ∀ y, F y = M * Real.exp (-(M * (y - b))) * ((a y - a b) * attenuated a M t y) := by
    intro y
    simp only [hF]
    ring
  have hsub1 : Set.uIcc b x ⊆ Set.uIcc b t := by
    rw [Set.uIcc_of_le hbx, Set.uIcc_of_le hb]
    exact Set.Icc_subset_Icc le_rfl hxt.le
  have hsub2 : Set.uIcc x t ⊆ Set.uIcc b t := by
    rw [Set.uIcc_of_le hxt.le, Set.uIcc_of_le hb]
    exact Set.Icc_subset_Icc hbx le_rfl
  have hF1 : 0 ≤ ∫ y in b..x, F y := by
    refine intervalIntegral.integral_nonneg hbx fun y hy => ?_
    rw [hFe]
    have := hup ⟨le_rfl, hb⟩ ⟨hy.1, hy.2.trans hxt.le⟩ hy.1
    exact mul_nonneg (mul_pos hM (Real.exp_pos _)).le
      (mul_nonneg (by linarith) (Real.exp_pos _).le)
  set G : ℝ → ℝ := fun y =>
    M * Real.exp (-(M * (y - b))) * ((a x - a b) * attenuated a M t y) with hG
  have hGc : _root_.Continuous G := by
    have := continuous_attenuated ha h0 h1 M t
    fun_prop
  have hF2 : 0 < ∫ y in x..t, F y := by
    have h3 : 0 < ∫ y in x..t, G y := by
      refine intervalIntegral.intervalIntegral_pos_of_pos (hGc.intervalIntegrable _ _)
        (fun y => ?_) hxt
      exact mul_pos (mul_pos hM (Real.exp_pos _)) (mul_pos (by linarith) (Real.exp_pos _))
    refine h3.trans_le ?_
    refine intervalIntegral.integral_mono_on hxt.le (hGc.intervalIntegrable _ _)
      (hFi.mono_set hsub2) fun y hy => ?_
    rw [hFe]
    have := hup ⟨hbx, hxt.le⟩ ⟨hbx.trans hy.1, hy.2⟩ hy.1
    refine mul_le_mul_of_nonneg_left ?_ (mul_pos hM (Real.exp_pos _)).le
    exact mul_le_mul_of_nonneg_right (by linarith) (Real.exp_pos _).le
  have hF3 : 0 < ∫ y in b..t, F y := by
    rw [← intervalIntegral.integral_add_adjacent_intervals (hFi.mono_set hsub1)
      (hFi.mono_set hsub2)]
    linarith
  have hF4 : ∫ y in b..t, F y = _ := intervalIntegral.integral_sub hi1 hi2
  have h4 := attenuated_equation ha h0 h1 hd hM hb
  linarith

end

/-- The chance when every tentative collision from distance `s` on is real, and before that a
fraction `q` of them, judged at the start of the tentative flight. -/
noncomputable def steppedChance (q M s t b : ℝ) : ℝ :=
  if b < s then
    Real.exp (-(M * (t - s))) * (1 + (1 - q) * M * (t - s)) * Real.exp (-(M * q * (s - b)))
  else Real.exp (-(M * (t - b)))

theorem measurable_steppedChance (q M s t : ℝ) : Measurable (steppedChance q M s t) := by
  unfold steppedChance
  exact Measurable.ite measurableSet_Iio (by fun_prop) (by fun_prop)

theorem steppedChance_bound {q M s t b : ℝ} (hM : 0 < M) (h0 : 0 ≤ q) (h1 : q ≤ 1) (hst : s ≤ t)
    (hb : b ≤ t) : |steppedChance q M s t b| ≤ 1 + (1 - q) * M * (t - s) := by
  have h2 : 0 ≤ (1 - q) * M * (t - s) :=
    mul_nonneg (mul_nonneg (by linarith) hM.le) (by linarith)
  unfold steppedChance
  split_ifs with h
  · rw [abs_of_nonneg (by positivity)]
    have h3 : Real.exp (-(M * (t - s))) ≤ 1 := Real.exp_le_one_iff.2 (by nlinarith)
    have h4 : Real.exp (-(M * q * (s - b))) ≤ 1 := by
      rw [Real.exp_le_one_iff]
      have := mul_nonneg (mul_nonneg hM.le h0) (by linarith : 0 ≤ s - b)
      linarith
    have h5 := mul_le_mul_of_nonneg_right h3 (by linarith : 0 ≤ 1 + (1 - q) * M * (t - s))
    have h6 := mul_le_of_le_one_right
      (a := Real.exp (-(M * (t - s))) * (1 + (1 - q) * M * (t - s))) (by positivity) h4
    linarith
  · rw [abs_of_pos (Real.exp_pos _)]
    have h3 : Real.exp (-(M * (t - b))) ≤ 1 := Real.exp_le_one_iff.2 (by nlinarith)
    linarith

theorem steppedChance_equation {q M s t b : ℝ} (hst : s ≤ t) :
    steppedChance q M s t b = Real.exp (-(M * (t - b))) +
      ∫ y in b..t, M * Real.exp (-(M * (y - b))) *
        ((1 - if b < s then q else 1) * steppedChance q M s t y) := by
  by_cases h : b < s
  · simp only [if_pos h]
    set K := Real.exp (-(M * (t - s))) * (1 + (1 - q) * M * (t - s)) with hK
    set F : ℝ → ℝ := fun y =>
      M * Real.exp (-(M * (y - b))) * ((1 - q) * steppedChance q M s t y) with hF
    have hl : Set.EqOn F (fun y =>
        M * Real.exp (-(M * (y - b))) * ((1 - q) * (K * Real.exp (-(M * q * (s - y))))))
        (Set.Ioo b s) := by
      intro y hy
      simp only [hF, steppedChance]
      rw [if_pos hy.2]
    have hr : Set.EqOn F (fun _ => M * (1 - q) * Real.exp (-(M * (t - b)))) (Set.uIcc s t) := by
      intro y hy
      rw [Set.uIcc_of_le hst] at hy
      simp only [hF, steppedChance]
      rw [if_neg (not_lt.2 hy.1)]
      rw [show -(M * (t - b)) = -(M * (y - b)) + -(M * (t - y)) by ring, Real.exp_add]
      ring
    have e1 : ∫ y in b..s, F y = K * Real.exp (-(M * q * (s - b))) - K * Real.exp (-(M * (s - b))) := by
      have : ∫ y in b..s, F y = ∫ y in b..s,
          M * Real.exp (-(M * (y - b))) * ((1 - q) * (K * Real.exp (-(M * q * (s - y))))) := by
        rw [intervalIntegral.integral_of_le h.le, intervalIntegral.integral_of_le h.le,
          integral_Ioc_eq_integral_Ioo, integral_Ioc_eq_integral_Ioo]
        exact setIntegral_congr_fun measurableSet_Ioo hl
      rw [this]
      have hderiv : ∀ y ∈ Set.uIcc b s, HasDerivAt
          (fun y => -(K * (Real.exp (-(M * (y - b))) * Real.exp (-(M * q * (s - y))))))
          (M * Real.exp (-(M * (y - b))) * ((1 - q) * (K * Real.exp (-(M * q * (s - y)))))) y := by
        intro y _
        have h1 : HasDerivAt (fun y : ℝ => s - y) (-1) y := (hasDerivAt_id y).const_sub s
        have h2 : HasDerivAt (fun y : ℝ => -(M * q * (s - y))) (-(M * q * -1)) y :=
          (h1.const_mul (M * q)).neg
        have h3 := ((((hasDerivAt_decay M b y).mul h2.exp)).const_mul K).neg
        have h4 : -(K * (-(M * Real.exp (-(M * (y - b)))) * Real.exp (-(M * q * (s - y))) +
            Real.exp (-(M * (y - b))) * (Real.exp (-(M * q * (s - y))) * -(M * q * -1)))) =
            M * Real.exp (-(M * (y - b))) * ((1 - q) * (K * Real.exp (-(M * q * (s - y))))) := by
          ring
        rw [h4] at h3
        exact h3
      rw [intervalIntegral.integral_eq_sub_of_hasDerivAt hderiv
        (Continuous.intervalIntegrable (by fun_prop) _ _)]
      simp only [sub_self, mul_zero, neg_zero, Real.exp_zero]
      ring
    have e2 : ∫ y in s..t, F y = M * (1 - q) * Real.exp (-(M * (t - b))) * (t - s) := by
      rw [intervalIntegral.integral_congr hr, intervalIntegral.integral_const, smul_eq_mul, mul_comm]
    have hi1 : IntervalIntegrable F volume b s := by
      have hc : IntervalIntegrable (fun y =>
          M * Real.exp (-(M * (y - b))) * ((1 - q) * (K * Real.exp (-(M * q * (s - y))))))
          volume b s := Continuous.intervalIntegrable (by fun_prop) _ _
      rw [intervalIntegrable_iff_integrableOn_Ioo_of_le h.le] at hc ⊢
      exact hc.congr_fun hl.symm measurableSet_Ioo
    have hi2 : IntervalIntegrable F volume s t := by
      have hc : IntervalIntegrable (fun _ : ℝ => M * (1 - q) * Real.exp (-(M * (t - b))))
          volume s t := Continuous.intervalIntegrable (by fun_prop) _ _
      rw [intervalIntegrable_iff_integrableOn_Icc_of_le hst] at hc ⊢
      rw [Set.uIcc_of_le hst] at hr
      exact hc.congr_fun hr.symm measurableSet_Icc
    rw [← intervalIntegral.integral_add_adjacent_intervals hi1 hi2, e1, e2]
    have e3 : K * Real.exp (-(M * (s - b))) =
        Real.exp (-(M * (t - b))) * (1 + (1 - q) * M * (t - s)) := by
      rw [show -(M * (t - b)) = -(M * (t - s)) + -(M * (s - b)) by ring, Real.exp_add, hK]
      ring
    rw [e3]
    unfold steppedChance
    rw [if_pos h]
    ring
  · unfold steppedChance
    simp only [if_neg h]
    simp

end Minimc.Spec
