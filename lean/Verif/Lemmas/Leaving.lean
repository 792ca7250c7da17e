import Verif.Lemmas.Equilibrium

/-! # The distribution of the neutrons that leave a collision -/

namespace Minimc

open Classical MeasureTheory Spec Set
open scoped ENNReal

/-! ### The rejection loop -/

/-- One pass of the loop, ending in `F` of the proposal and the remaining numbers or in `R` of the
remaining numbers. -/
noncomputable def passThen (y : ℝ) (F : ℝ × ℝ → (ℕ → ℝ) → ℝ≥0∞) (R : (ℕ → ℝ) → ℝ≥0∞) (us : ℕ → ℝ) :
    ℝ≥0∞ :=
  onePass y (fun z => F z fun i => us (i + ((proposal y us).2.2 + 1))) R us

theorem passThen_eq (y : ℝ) (F : ℝ × ℝ → (ℕ → ℝ) → ℝ≥0∞) (R : (ℕ → ℝ) → ℝ≥0∞) (us : ℕ → ℝ) :
    passThen y F R us =
      if us 2 < 2 / (Real.sqrt Real.pi * y + 2) then
        onePass y (fun z => F z fun i => us (i + 5)) R us
      else onePass y (fun z => F z fun i => us (i + 6)) R us := by
  unfold passThen proposal
  by_cases h : us 2 < 2 / (Real.sqrt Real.pi * y + 2)
  · simp only [if_pos h]
  · simp only [if_neg h]

theorem measurable_passThen (y : ℝ) {F : ℝ × ℝ → (ℕ → ℝ) → ℝ≥0∞}
    (hF : Measurable fun q : (ℝ × ℝ) × (ℕ → ℝ) => F q.1 q.2) {R : (ℕ → ℝ) → ℝ≥0∞}
    (hR : Measurable R) : Measurable (passThen y F R) := by
  have e : passThen y F R = fun us => _ := funext fun us => (passThen_eq y F R us).trans
    (by rw [onePass_eq, onePass_eq])
  rw [e]
  have h5 : Measurable fun us : ℕ → ℝ => R fun i => us (i + 5) :=
    hR.comp (measurable_pi_iff.2 fun i => measurable_pi_apply _)
  have h6 : Measurable fun us : ℕ → ℝ => R fun i => us (i + 6) :=
    hR.comp (measurable_pi_iff.2 fun i => measurable_pi_apply _)
  have s5 : Measurable fun us : ℕ → ℝ => fun i => us (i + 5) :=
    measurable_pi_iff.2 fun i => measurable_pi_apply _
  have s6 : Measurable fun us : ℕ → ℝ => fun i => us (i + 6) :=
    measurable_pi_iff.2 fun i => measurable_pi_apply _
  have f5 : ∀ {f : (ℕ → ℝ) → ℝ × ℝ}, Measurable f → Measurable fun us => F (f us) fun i => us (i + 5) :=
    fun hf => hF.comp (hf.prodMk s5)
  have f6 : ∀ {f : (ℕ → ℝ) → ℝ × ℝ}, Measurable f → Measurable fun us => F (f us) fun i => us (i + 6) :=
    fun hf => hF.comp (hf.prodMk s6)
  refine Measurable.ite (measurableSet_lt (by fun_prop) (by fun_prop)) ?_ ?_
  · refine Measurable.ite (measurableSet_lt (by fun_prop) (by fun_prop)) ?_ ?_
    · refine Measurable.ite (measurableSet_lt (by fun_prop) ?_) (f5 (by fun_prop)) h5
      exact (measurable_relativeSpeed (by fun_prop) (by fun_prop) (by fun_prop)).div (by fun_prop)
    · refine Measurable.ite (measurableSet_lt (by fun_prop) ?_) (f5 (by fun_prop)) h6
      exact (measurable_relativeSpeed (by fun_prop) (by fun_prop) (by fun_prop)).div (by fun_prop)
  · refine Measurable.ite (measurableSet_lt (by fun_prop) (by fun_prop)) ?_ ?_
    · refine Measurable.ite (measurableSet_lt (by fun_prop) ?_) (f6 (by fun_prop)) h5
      exact (measurable_relativeSpeed (by fun_prop) (by fun_prop) (by fun_prop)).div (by fun_prop)
    · refine Measurable.ite (measurableSet_lt (by fun_prop) ?_) (f6 (by fun_prop)) h6
      exact (measurable_relativeSpeed (by fun_prop) (by fun_prop) (by fun_prop)).div (by fun_prop)

/-- The numbers after the proposal are as good as new ones. -/
theorem lintegral_passThen (y : ℝ) {F : ℝ × ℝ → (ℕ → ℝ) → ℝ≥0∞}
    (hF : Measurable fun q : (ℝ × ℝ) × (ℕ → ℝ) => F q.1 q.2) {R : (ℕ → ℝ) → ℝ≥0∞}
    (hR : Measurable R) :
    ∫⁻ us, passThen y F R us ∂uniforms =
      ∫⁻ us, onePass y (fun z => ∫⁻ us, F z us ∂uniforms) R us ∂uniforms := by
  have hF' : Measurable fun z : ℝ × ℝ => ∫⁻ us, F z us ∂uniforms := hF.lintegral_prod_right'
  have hm0 := measurable_passThen y hF hR
  have hn0 := measurable_onePass y hF' hR
  rw [lintegral_uniforms hm0, lintegral_uniforms hn0]
  refine lintegral_congr fun a => ?_
  have hm1 := hm0.comp (measurable_consSeq_mk a)
  have hn1 := hn0.comp (measurable_consSeq_mk a)
  refine (lintegral_uniforms hm1).trans (Eq.trans (lintegral_congr fun b => ?_)
    (lintegral_uniforms hn1).symm)
  have hm2 := hm1.comp (measurable_consSeq_mk b)
  have hn2 := hn1.comp (measurable_consSeq_mk b)
  refine (lintegral_uniforms hm2).trans (Eq.trans (lintegral_congr fun u => ?_)
    (lintegral_uniforms hn2).symm)
  have hm3 := hm2.comp (measurable_consSeq_mk u)
  have hn3 := hn2.comp (measurable_consSeq_mk u)
  refine (lintegral_uniforms hm3).trans (Eq.trans (lintegral_congr fun d => ?_)
    (lintegral_uniforms hn3).symm)
  have hm4 := hm3.comp (measurable_consSeq_mk d)
  have hn4 := hn3.comp (measurable_consSeq_mk d)
  refine (lintegral_uniforms hm4).trans (Eq.trans (lintegral_congr fun e => ?_)
    (lintegral_uniforms hn4).symm)
  have hm5 := hm4.comp (measurable_consSeq_mk e)
  have hn5 := hn4.comp (measurable_consSeq_mk e)
  by_cases h : u < 2 / (Real.sqrt Real.pi * y + 2)
  · refine Eq.trans (lintegral_congr fun us => (passThen_eq y F R _).trans ((if_pos (by exact h)).trans
      ((onePass_eq y _ R _).trans (if_pos (by exact h))))) ?_
    symm
    refine Eq.trans (lintegral_congr fun us =>
      (onePass_eq y (fun z => ∫⁻ us, F z us ∂uniforms) R _).trans (if_pos (by exact h))) ?_
    symm
    by_cases hc : e < relativeSpeed y (Real.sqrt (-Real.log (a * b))) (2 * d - 1) /
        (Real.sqrt (-Real.log (a * b)) + y)
    · refine Eq.trans (lintegral_congr fun us => if_pos (by exact hc)) ?_
      symm
      refine Eq.trans (lintegral_congr fun us => if_pos (by exact hc)) ?_
      refine (lintegral_const (∫⁻ us, F (Real.sqrt (-Real.log (a * b)), 2 * d - 1) us ∂uniforms)).trans ?_
      rw [measure_univ, mul_one]
      rfl
    · refine Eq.trans (lintegral_congr fun us => if_neg (by exact hc)) ?_
      symm
      exact lintegral_congr fun us => if_neg (by exact hc)
  · refine (lintegral_uniforms hm5).trans (Eq.trans (lintegral_congr fun f => ?_)
      (lintegral_uniforms hn5).symm)
    refine Eq.trans (lintegral_congr fun us => (passThen_eq y F R _).trans ((if_neg (by exact h)).trans
      ((onePass_eq y _ R _).trans (if_neg (by exact h))))) ?_
    symm
    refine Eq.trans (lintegral_congr fun us =>
      (onePass_eq y (fun z => ∫⁻ us, F z us ∂uniforms) R _).trans (if_neg (by exact h))) ?_
    symm
    by_cases hc : f < relativeSpeed y (Real.sqrt (-Real.log a - Real.log b *
            Real.cos (Real.pi * d / 2) * Real.cos (Real.pi * d / 2))) (2 * e - 1) /
            (Real.sqrt (-Real.log a - Real.log b *
            Real.cos (Real.pi * d / 2) * Real.cos (Real.pi * d / 2)) + y)
    · refine Eq.trans (lintegral_congr fun us => if_pos (by exact hc)) ?_
      symm
      refine Eq.trans (lintegral_congr fun us => if_pos (by exact hc)) ?_
      refine (lintegral_const (∫⁻ us, F (Real.sqrt (-Real.log a - Real.log b *
            Real.cos (Real.pi * d / 2) * Real.cos (Real.pi * d / 2)), 2 * e - 1) us ∂uniforms)).trans ?_
      rw [measure_univ, mul_one]
      rfl
    · refine Eq.trans (lintegral_congr fun us => if_neg (by exact hc)) ?_
      symm
      exact lintegral_congr fun us => if_neg (by exact hc)

/-- Value of `F` for the neutron that leaves, zero while there is none. -/
def worth (F : Direction × ℝ → ℝ≥0∞) (o : Option (Direction × ℝ)) : ℝ≥0∞ := o.elim 0 F

variable {a b : Direction → Direction}

attribute [local irreducible] departure

theorem worth_succ (A m β : ℝ) (d : Direction) (speed : ℝ) (F : Direction × ℝ → ℝ≥0∞) (n : ℕ)
    (us : ℕ → ℝ) :
    worth F (leaving a b A m β d speed (n + 1) us) =
      passThen (β * speed) (fun z us => F (departure a b A m d speed (z.1 / β) z.2 us))
        (fun us => worth F (leaving a b A m β d speed n us)) us := by
  unfold passThen onePass
  rw [leaving]
  simp only
  split_ifs <;> rfl

theorem measurable_end (h : Frames a b) (A m β : ℝ) (d : Direction) (speed : ℝ)
    {F : Direction × ℝ → ℝ≥0∞} (hF : Measurable F) :
    Measurable fun q : (ℝ × ℝ) × (ℕ → ℝ) => F (departure a b A m d speed (q.1.1 / β) q.1.2 q.2) :=
  hF.comp ((measurable_departure h A m d speed).comp
    (by fun_prop : Measurable fun q : (ℝ × ℝ) × (ℕ → ℝ) => ((q.1.1 / β, q.1.2), q.2)))

theorem measurable_worth (h : Frames a b) (A m β : ℝ) (d : Direction) (speed : ℝ)
    {F : Direction × ℝ → ℝ≥0∞} (hF : Measurable F) : ∀ n,
    Measurable fun us => worth F (leaving a b A m β d speed n us)
  | 0 => measurable_const
  | n + 1 => by
    simp_rw [worth_succ]
    exact measurable_passThen _ (measurable_end h A m β d speed hF)
      (measurable_worth h A m β d speed hF n)

theorem lintegral_worth (h : Frames a b) (A m : ℝ) {β speed : ℝ} (hy : 0 < β * speed) (d : Direction)
    {F : Direction × ℝ → ℝ≥0∞} (hF : Measurable F) : ∀ n,
    ∫⁻ us, worth F (leaving a b A m β d speed n us) ∂uniforms =
      accepted (β * speed) (fun z => ∫⁻ us, F (departure a b A m d speed (z.1 / β) z.2 us) ∂uniforms) *
        ∑ k ∈ Finset.range n, rejected (β * speed) ^ k
  | 0 => by simp [leaving, worth]
  | n + 1 => by
    simp_rw [worth_succ]
    have hm := measurable_end h A m β d speed hF
    rw [lintegral_passThen _ hm (measurable_worth h A m β d speed hF n),
      lintegral_onePass_eq hy hm.lintegral_prod_right' (measurable_worth h A m β d speed hF n),
      lintegral_worth h A m hy d hF n, Finset.sum_range_succ']
    simp only [pow_succ, pow_zero, ← Finset.sum_mul]
    ring

theorem leaving_succ {A m β : ℝ} {d : Direction} {speed : ℝ} {z : Direction × ℝ} :
    ∀ {n : ℕ} {us : ℕ → ℝ}, leaving a b A m β d speed n us = some z →
    leaving a b A m β d speed (n + 1) us = some z
  | n + 1, us, h => by
    rw [leaving] at h ⊢
    simp only at h ⊢
    split_ifs at h ⊢ with hc
    · exact h
    · exact leaving_succ h

/-- The probability that a neutron leaves in a given way. -/
theorem uniforms_leaving (h : Frames a b) (A m : ℝ) {β speed : ℝ} (hβ : 0 < β) (hv : 0 < speed)
    (d : Direction) {S : Set (Direction × ℝ)} (hS : MeasurableSet S) :
    uniforms {us | ∃ n, ∃ z ∈ S, leaving a b A m β d speed n us = some z} =
      ∫⁻ s in Ioi (0 : ℝ), ∫⁻ μ in Ioo (-1 : ℝ) 1, ENNReal.ofReal (metDensity β speed s μ) *
        ∫⁻ us, S.indicator (fun _ => 1) (departure a b A m d speed s μ us) ∂uniforms := by
  have hy := mul_pos hβ hv
  have hF : Measurable (S.indicator fun _ => (1 : ℝ≥0∞)) := measurable_const.indicator hS
  set Q : ℝ × ℝ → ℝ≥0∞ := fun z =>
    ∫⁻ us, S.indicator (fun _ => 1) (departure a b A m d speed (z.1 / β) z.2 us) ∂uniforms with hQ
  have hn : ∀ n us, worth (S.indicator fun _ => 1) (leaving a b A m β d speed n us) =
      {us | ∃ z ∈ S, leaving a b A m β d speed n us = some z}.indicator (fun _ => 1) us := by
    intro n us
    by_cases h : ∃ z ∈ S, leaving a b A m β d speed n us = some z
    · rw [indicator_of_mem (by exact h)]
      obtain ⟨z, hz, e⟩ := h
      rw [e]
      change S.indicator (fun _ => (1 : ℝ≥0∞)) z = 1
      rw [indicator_of_mem hz]
    · rw [indicator_of_notMem (by exact h)]
      cases e : leaving a b A m β d speed n us with
      | none => rfl
      | some z =>
        change S.indicator (fun _ => (1 : ℝ≥0∞)) z = 0
        rw [indicator_of_notMem fun hz => h ⟨z, hz, e⟩]
  have hm : ∀ n, MeasurableSet {us | ∃ z ∈ S, leaving a b A m β d speed n us = some z} := by
    intro n
    have h := measurable_worth h A m β d speed hF n
    simp_rw [hn] at h
    exact (measurable_indicator_const_iff (1 : ℝ≥0∞)).1 h
  have hI : ∀ n, uniforms {us | ∃ z ∈ S, leaving a b A m β d speed n us = some z} =
      accepted (β * speed) Q * ∑ k ∈ Finset.range n, rejected (β * speed) ^ k := by
    intro n
    rw [← lintegral_worth h A m hy d hF n]
    simp_rw [hn]
    rw [lintegral_indicator (hm n), setLIntegral_const, one_mul]
  have hmono : Monotone fun n => {us | ∃ z ∈ S, leaving a b A m β d speed n us = some z} := by
    refine monotone_nat_of_le_succ fun n us => ?_
    rintro ⟨z, hz, h⟩
    exact ⟨z, hz, leaving_succ h⟩
  have hU : {us | ∃ n, ∃ z ∈ S, leaving a b A m β d speed n us = some z} =
      ⋃ n, {us | ∃ z ∈ S, leaving a b A m β d speed n us = some z} := by
    ext us; simp
  have hlim := tendsto_measure_iUnion_atTop (μ := uniforms) hmono
  rw [← hU] at hlim
  have hQ1 : ∀ z, Q z ≤ 1 := by
    intro z
    refine (lintegral_mono fun us => indicator_le_self' (fun _ _ => zero_le) _).trans ?_
    simp
  have hsum : Filter.Tendsto (fun n => accepted (β * speed) Q *
      ∑ k ∈ Finset.range n, rejected (β * speed) ^ k) Filter.atTop
      (nhds (accepted (β * speed) Q / accepted (β * speed) fun _ => 1)) := by
    have h1 := accepted_add_rejected hy
    have hne : accepted (β * speed) (fun _ => 1) ≠ ⊤ := by
      intro h; rw [h, top_add] at h1; exact ENNReal.top_ne_one h1
    have hr : rejected (β * speed) ≠ ⊤ := by
      intro h; rw [h, add_top] at h1; exact ENNReal.top_ne_one h1
    have hq : 1 - rejected (β * speed) = accepted (β * speed) (fun _ => 1) :=
      ENNReal.sub_eq_of_eq_add hr h1.symm
    have hle : accepted (β * speed) Q ≤ accepted (β * speed) fun _ => 1 := by
      unfold accepted
      refine lintegral_mono fun x => lintegral_mono fun μ => ?_
      exact mul_le_mul_right (hQ1 _) _
    have ht := ENNReal.tendsto_nat_tsum fun k => rejected (β * speed) ^ k
    rw [ENNReal.tsum_geometric, hq] at ht
    rw [div_eq_mul_inv]
    refine ENNReal.Tendsto.const_mul ht (Or.inr ?_)
    exact ne_top_of_le_ne_top hne hle
  have hval : uniforms {us | ∃ n, ∃ z ∈ S, leaving a b A m β d speed n us = some z} =
      accepted (β * speed) Q / accepted (β * speed) fun _ => 1 := by
    refine tendsto_nhds_unique hlim ?_
    simp only [Function.comp_def, hI]
    exact hsum
  have hpos : 0 < meanRelativeSpeed β speed := by
    rw [meanRelativeSpeed_eq hβ hv]
    have := one_lt_adj (mul_pos hβ hv)
    positivity
  have hC : 0 < Real.sqrt Real.pi * β / (Real.sqrt Real.pi * (β * speed) + 2) := by
    have := Real.sqrt_pos.2 Real.pi_pos
    positivity
  rw [hval, accepted_eq hβ hv, accepted_eq hβ hv]
  simp only [mul_one]
  rw [lintegral_rate hβ hv, ENNReal.mul_div_mul_left _ _ (by simpa using hC) ENNReal.ofReal_ne_top,
    div_eq_mul_inv, mul_comm, ← lintegral_const_mul' _ _ (by simpa using hpos)]
  refine lintegral_congr fun s => ?_
  rw [← lintegral_const_mul' _ _ (by simpa using hpos)]
  refine lintegral_congr fun μ => ?_
  unfold metDensity
  rw [hQ]
  simp only
  rw [mul_div_cancel_left₀ _ hβ.ne', ENNReal.ofReal_div_of_pos hpos, ENNReal.div_eq_inv_mul, mul_assoc]

end Minimc
