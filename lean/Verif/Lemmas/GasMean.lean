import Verif.Lemmas.GasWalk
import Verif.Lemmas.ChainMean
import Verif.Lemmas.CollisionLaw
import Verif.Props.Maxwell
import Verif.Props.FreeGasScatter

/-! # Chains of neutrons in gases: the mean after a collision -/

namespace Minimc

open Classical MeasureTheory Spec Set Props
open scoped ENNReal

variable {a b : Direction → Direction}

/-! ### The rejection loop -/

theorem gasScattered_mono {σ : Type} (S : Supply σ) (A β : ℝ) (d : Direction) (speed : ℝ)
    (next : Direction → ℝ → σ → ℝ≥0∞) (n : ℕ) (s : σ) :
    gasScattered S a b A β d speed next n s ≤ gasScattered S a b A β d speed next (n + 1) s := by
  induction n generalizing s with
  | zero => exact zero_le
  | succ n ih =>
    rw [gasScattered, gasScattered]
    generalize proposal (β * speed) (S.numbers s) = q
    obtain ⟨x, μ, k⟩ := q
    simp only
    split_ifs
    · exact le_rfl
    · exact le_rfl
    · exact ih _

theorem gasScattered_monotone {σ : Type} (S : Supply σ) (A β : ℝ) (d : Direction) (speed : ℝ)
    (next : Direction → ℝ → σ → ℝ≥0∞) (s : σ) :
    Monotone fun n => gasScattered S a b A β d speed next n s :=
  monotone_nat_of_le_succ fun n => gasScattered_mono S A β d speed next n s

theorem lintegral_gasScattered (h : Frames a b) (A : ℝ) {β speed : ℝ} (hy : 0 < β * speed) (d : Direction)
    {next : Direction → ℝ → (ℕ → ℝ) → ℝ≥0∞}
    (hn : Measurable fun q : Direction × ℝ × (ℕ → ℝ) => next q.1 q.2.1 q.2.2) : ∀ n,
    ∫⁻ us, gasScattered endless a b A β d speed next n us ∂uniforms =
      accepted (β * speed) (fun z => ∫⁻ us, goneOn a b A β d speed next z us ∂uniforms) *
        ∑ k ∈ Finset.range n, rejected (β * speed) ^ k
  | 0 => by simp [gasScattered]
  | n + 1 => by
    simp_rw [gasScattered_succ]
    have hm : Measurable fun q : (ℝ × ℝ) × (ℕ → ℝ) => goneOn a b A β d speed next q.1 q.2 :=
      measurable_goneOn (next := fun _ => next) h A β (hn.comp measurable_snd) measurable_const
        measurable_const measurable_fst measurable_snd
    have hg : Measurable (gasScattered endless a b A β d speed next n) :=
      measurable_gasScattered (next := fun _ => next) h A β (hn.comp measurable_snd) measurable_const
        measurable_const n measurable_id
    rw [lintegral_passThen _ hm hg, lintegral_onePass_eq hy hm.lintegral_prod_right' hg,
      lintegral_gasScattered h A hy d hn n, Finset.sum_range_succ']
    simp only [pow_succ, pow_zero, ← Finset.sum_mul]
    ring

/-- The mean over all proposals. -/
theorem lintegral_gasScattered_iSup (h : Frames a b) (A : ℝ) {β speed : ℝ} (hβ : 0 < β)
    (hv : 0 < speed) (d : Direction) {next : Direction → ℝ → (ℕ → ℝ) → ℝ≥0∞}
    (hn : Measurable fun q : Direction × ℝ × (ℕ → ℝ) => next q.1 q.2.1 q.2.2) :
    ∫⁻ us, ⨆ n, gasScattered endless a b A β d speed next n us ∂uniforms =
      ENNReal.ofReal (1 / meanRelativeSpeed β speed) *
        ∫⁻ s in Ioi (0 : ℝ), ∫⁻ μ in Ioo (-1 : ℝ) 1,
          ENNReal.ofReal (maxwell β s / 2 * relativeSpeed speed s μ) *
            ∫⁻ us, goneOn a b A β d speed next (β * s, μ) us ∂uniforms := by
  have hy := mul_pos hβ hv
  have hg : ∀ n, Measurable (gasScattered endless a b A β d speed next n) := fun n =>
    measurable_gasScattered (next := fun _ => next) h A β (hn.comp measurable_snd) measurable_const
      measurable_const n measurable_id
  rw [lintegral_iSup hg fun i j hij us => gasScattered_monotone endless A β d speed next us hij]
  simp only [lintegral_gasScattered h A hy d hn]
  rw [← ENNReal.mul_iSup, ← ENNReal.tsum_eq_iSup_nat, ENNReal.tsum_geometric]
  have h1 := accepted_add_rejected hy
  have hr : rejected (β * speed) ≠ ⊤ := by
    intro h; rw [h, add_top] at h1; exact ENNReal.top_ne_one h1
  have hq : 1 - rejected (β * speed) = accepted (β * speed) (fun _ => 1) :=
    ENNReal.sub_eq_of_eq_add hr h1.symm
  have hpos : 0 < meanRelativeSpeed β speed := by
    rw [meanRelativeSpeed_eq hβ hv]
    have := one_lt_adj (mul_pos hβ hv)
    positivity
  have hC : 0 < Real.sqrt Real.pi * β / (Real.sqrt Real.pi * (β * speed) + 2) := by
    have := Real.sqrt_pos.2 Real.pi_pos
    positivity
  rw [hq, ← div_eq_mul_inv, accepted_eq hβ hv, accepted_eq hβ hv]
  simp only [mul_one]
  rw [lintegral_rate hβ hv, ENNReal.mul_div_mul_left _ _ (by simpa using hC) ENNReal.ofReal_ne_top,
    ENNReal.div_eq_inv_mul, one_div, ENNReal.ofReal_inv_of_pos hpos]

/-! ### The collision -/

/-- The first four numbers apart from the others. -/
theorem lintegral_four {H : (ℕ → ℝ) → (ℕ → ℝ) → ℝ≥0∞}
    (hH : Measurable fun q : (ℕ → ℝ) × (ℕ → ℝ) => H q.1 q.2)
    (h4 : ∀ us us' : ℕ → ℝ, us 0 = us' 0 → us 1 = us' 1 → us 2 = us' 2 → us 3 = us' 3 → H us = H us') :
    ∫⁻ us, H us (fun k => us (k + 4)) ∂uniforms = ∫⁻ us, ∫⁻ vs, H us vs ∂uniforms ∂uniforms := by
  set f : ℝ → ℝ → ℝ → ℝ → (ℕ → ℝ) := fun p q r s k =>
    if k = 0 then p else if k = 1 then q else if k = 2 then r else s with hf
  have hfm : Measurable fun z : ℝ × ℝ × ℝ × ℝ => f z.1 z.2.1 z.2.2.1 z.2.2.2 := by
    refine measurable_pi_iff.2 fun k => ?_
    simp only [hf]
    split_ifs <;> fun_prop
  have hG : Measurable fun z : (ℝ × ℝ × ℝ × ℝ) × (ℕ → ℝ) =>
      H (f z.1.1 z.1.2.1 z.1.2.2.1 z.1.2.2.2) z.2 :=
    hH.comp ((hfm.comp measurable_fst).prodMk measurable_snd)
  have e : ∀ us, H us = H (f (us 0) (us 1) (us 2) (us 3)) := fun us => h4 _ _ rfl rfl rfl rfl
  have hI : Measurable fun z : ℝ × ℝ × ℝ × ℝ => ∫⁻ vs, H (f z.1 z.2.1 z.2.2.1 z.2.2.2) vs ∂uniforms :=
    hG.lintegral_prod_right'
  have e1 : ∫⁻ us, H us (fun k => us (k + 4)) ∂uniforms = ∫⁻ p, ∫⁻ q, ∫⁻ r, ∫⁻ s, ∫⁻ vs,
      H (f p q r s) vs ∂uniforms ∂uniform ∂uniform ∂uniform ∂uniform := by
    rw [lintegral_congr fun us => congrFun (e us) _]
    refine (lintegral_first (F := fun p us => H (f p (us 0) (us 1) (us 2)) fun k => us (k + 3))
      ?_).trans (lintegral_congr fun p => ?_)
    · exact hG.comp (f := fun z : ℝ × (ℕ → ℝ) => ((z.1, z.2 0, z.2 1, z.2 2), fun k => z.2 (k + 3)))
        (Measurable.prodMk (by fun_prop) (measurable_shift measurable_snd 3))
    refine (lintegral_first (F := fun q us => H (f p q (us 0) (us 1)) fun k => us (k + 2))
      ?_).trans (lintegral_congr fun q => ?_)
    · exact hG.comp (f := fun z : ℝ × (ℕ → ℝ) => ((p, z.1, z.2 0, z.2 1), fun k => z.2 (k + 2)))
        (Measurable.prodMk (by fun_prop) (measurable_shift measurable_snd 2))
    refine (lintegral_first (F := fun r us => H (f p q r (us 0)) fun k => us (k + 1))
      ?_).trans (lintegral_congr fun r => ?_)
    · exact hG.comp (f := fun z : ℝ × (ℕ → ℝ) => ((p, q, z.1, z.2 0), fun k => z.2 (k + 1)))
        (Measurable.prodMk (by fun_prop) (measurable_shift measurable_snd 1))
    exact lintegral_first (F := fun s us => H (f p q r s) us)
      (hG.comp (f := fun z : ℝ × (ℕ → ℝ) => ((p, q, r, z.1), z.2)) (by fun_prop))
  have e2 : ∫⁻ us, ∫⁻ vs, H us vs ∂uniforms ∂uniforms = ∫⁻ p, ∫⁻ q, ∫⁻ r, ∫⁻ s, ∫⁻ vs,
      H (f p q r s) vs ∂uniforms ∂uniform ∂uniform ∂uniform ∂uniform := by
    have e3 : ∀ us, ∫⁻ vs, H us vs ∂uniforms = ∫⁻ vs, H (f (us 0) (us 1) (us 2) (us 3)) vs ∂uniforms :=
      fun us => by rw [e us]
    rw [lintegral_congr e3]
    refine (lintegral_first (F := fun p us => ∫⁻ vs, H (f p (us 0) (us 1) (us 2)) vs ∂uniforms)
      ?_).trans (lintegral_congr fun p => ?_)
    · exact hI.comp (f := fun z : ℝ × (ℕ → ℝ) => (z.1, z.2 0, z.2 1, z.2 2)) (by fun_prop)
    refine (lintegral_first (F := fun q us => ∫⁻ vs, H (f p q (us 0) (us 1)) vs ∂uniforms)
      ?_).trans (lintegral_congr fun q => ?_)
    · exact hI.comp (f := fun z : ℝ × (ℕ → ℝ) => (p, z.1, z.2 0, z.2 1)) (by fun_prop)
    refine (lintegral_first (F := fun r us => ∫⁻ vs, H (f p q r (us 0)) vs ∂uniforms)
      ?_).trans (lintegral_congr fun r => ?_)
    · exact hI.comp (f := fun z : ℝ × (ℕ → ℝ) => (p, q, z.1, z.2 0)) (by fun_prop)
    refine (lintegral_first (F := fun s _ => ∫⁻ vs, H (f p q r s) vs ∂uniforms)
      ?_).trans (lintegral_congr fun s => ?_)
    · exact hI.comp (f := fun z : ℝ × (ℕ → ℝ) => (p, q, r, z.1)) (by fun_prop)
    simp
  rw [e1, e2]

theorem departure_congr (A m : ℝ) (d : Direction) (speed s μ : ℝ) {us us' : ℕ → ℝ} (h0 : us 0 = us' 0)
    (h1 : us 1 = us' 1) (h2 : us 2 = us' 2) (h3 : us 3 = us' 3) :
    departure a b A m d speed s μ us = departure a b A m d speed s μ us' := by
  unfold departure
  rw [h0, h1, h2, h3]

/-- What a neutron is worth that moves on. -/
noncomputable def moving (E : Direction → ℝ → ℝ≥0∞) (z : Direction × ℝ) : ℝ≥0∞ :=
  if z.2 = 0 then 0 else E z.1 z.2

theorem measurable_moving {E : Direction → ℝ → ℝ≥0∞}
    (hE : Measurable fun q : Direction × ℝ => E q.1 q.2) : Measurable (moving E) :=
  Measurable.ite (measurableSet_eq_fun measurable_snd measurable_const) measurable_const hE

theorem kept_moving (E : Direction → ℝ → ℝ≥0∞) (v : Point) :
    kept neutronMass (moving E) v = ofVelocity E v := by
  have hm := neutronMass_pos
  unfold kept moving ofVelocity
  have : neutronMass * normSq v / 2 = 0 ↔ normSq v = 0 := by
    constructor
    · intro h
      by_contra h'
      have := lt_of_le_of_ne (normSq_nonneg v) (Ne.symm h')
      have : 0 < neutronMass * normSq v / 2 := by positivity
      linarith
    · intro h
      rw [h]; ring
  by_cases h : normSq v = 0
  · rw [if_pos (this.2 h), if_pos h]
  · rw [if_neg (fun h' => h (this.1 h')), if_neg h]

theorem lintegral_goneOn (h : Frames a b) (A : ℝ) {β : ℝ} (hβ : 0 < β) (speed : ℝ) (d : Direction)
    {next : Direction → ℝ → (ℕ → ℝ) → ℝ≥0∞}
    (hn : Measurable fun q : Direction × ℝ × (ℕ → ℝ) => next q.1 q.2.1 q.2.2) (s μ : ℝ) :
    ∫⁻ us, goneOn a b A β d speed next (β * s, μ) us ∂uniforms =
      ∫⁻ us, moving (fun d' e' => ∫⁻ vs, next d' e' vs ∂uniforms)
        (departure a b A neutronMass d speed s μ us) ∂uniforms := by
  have hs : β * s / β = s := by field_simp
  set D : (ℕ → ℝ) → Direction × ℝ := fun us => departure a b A neutronMass d speed s μ us with hD
  have hDm : Measurable D := measurable_departure' h A neutronMass measurable_const measurable_const
    measurable_const measurable_const measurable_id
  have e0 : ∀ us, goneOn a b A β d speed next (β * s, μ) us =
      (fun us vs => if (D us).2 = 0 then 0 else next (D us).1 (D us).2 vs) us fun k => us (k + 4) := by
    intro us
    unfold goneOn
    simp only [hs, hD]
  rw [lintegral_congr e0, lintegral_four (H := fun us vs => if (D us).2 = 0 then 0 else next (D us).1 (D us).2 vs)]
  · refine lintegral_congr fun us => ?_
    unfold moving
    simp only [hD]
    split_ifs
    · simp
    · rfl
  · have h1 : Measurable fun q : (ℕ → ℝ) × (ℕ → ℝ) => D q.1 := hDm.comp measurable_fst
    exact Measurable.ite (measurableSet_eq_fun h1.snd measurable_const) measurable_const
      (hn.comp (h1.fst.prodMk (h1.snd.prodMk measurable_snd)))
  · intro us us' h0 h1 h2 h3
    have : D us = D us' := departure_congr A neutronMass d speed s μ h0 h1 h2 h3
    funext vs
    simp only [this]

theorem measurable_ofVelocity {E : Direction → ℝ → ℝ≥0∞}
    (hE : Measurable fun q : Direction × ℝ => E q.1 q.2) : Measurable (ofVelocity E) := by
  have h := measurable_kept neutronMass (measurable_moving hE)
  have : kept neutronMass (moving E) = ofVelocity E := funext (kept_moving E)
  rwa [this] at h

theorem meetingSpeed_pos {A t e : ℝ} (hA : 0 < A) (ht : 0 ≤ t) (he : 0 < e) : 0 < meetingSpeed A t e := by
  have hm := neutronMass_pos
  unfold meetingSpeed
  split_ifs with h
  · exact speedOf_pos hm he
  · have h1 := slowness_pos (mul_pos hA hm) (lt_of_le_of_ne ht (Ne.symm h))
    have h2 := speedOf_pos hm he
    rw [meanRelativeSpeed_eq h1 h2]
    have := one_lt_adj (mul_pos h1 h2)
    positivity

/-- The integral over the velocities of the atoms as one over space. -/
theorem collided_eq {A t : ℝ} {d : Direction} {e : ℝ} {E : Direction → ℝ → ℝ≥0∞}
    (hE : Measurable fun q : Direction × ℝ => E q.1 q.2) :
    collided A t d e E = ENNReal.ofReal (1 / meetingSpeed A t e) *
      ∫⁻ V, ENNReal.ofReal (gasDensity (slowness (A * neutronMass) t) V *
          Real.sqrt (normSq (combine 1 (combine (speedOf neutronMass e) d 0 d) (-1) V))) *
        sphereMean (fun n => ofVelocity E (struck A (combine (speedOf neutronMass e) d 0 d) V n))
        ∂spaceVolume := by
  have hv := measurable_ofVelocity hE
  set v := combine (speedOf neutronMass e) d 0 d with hvd
  have hQ : Measurable fun V : Point => sphereMean fun n => ofVelocity E (struck A v V n) := by
    have e : ∀ V, (sphereMean fun n => ofVelocity E (struck A v V n)) =
        ∫⁻ n, ofVelocity E (struck A v V n) ∂sphereLaw := fun V =>
      (lintegral_sphereLaw (hv.comp (by fun_prop))).symm
    simp only [e]
    exact Measurable.lintegral_prod_right' (f := fun q : Point × Point => ofVelocity E (struck A v q.1 q.2))
      (hv.comp (by fun_prop))
  have hΨ : Measurable fun V : Point => ENNReal.ofReal (gasDensity (slowness (A * neutronMass) t) V *
      Real.sqrt (normSq (combine 1 v (-1) V))) * sphereMean fun n => ofVelocity E (struck A v V n) := by
    unfold gasDensity
    fun_prop
  have hΨ3 := hΨ.comp measurable_triple
  rw [lintegral_spaceVolume hΨ]
  unfold collided
  simp only [← hvd]
  congr 1
  symm
  refine (lintegral_prod _ hΨ3.aemeasurable).trans (lintegral_congr fun x => ?_)
  exact lintegral_prod _ (hΨ3.comp measurable_prodMk_left).aemeasurable

/-- The mean after a scattering. -/
theorem lintegral_scattered (h : Frames a b) {A t e : ℝ} (hA : 0 < A) (ht : 0 < t) (he : 0 < e)
    {d : Direction} (hd : UnitVec d) {next : Direction → ℝ → (ℕ → ℝ) → ℝ≥0∞}
    (hn : Measurable fun q : Direction × ℝ × (ℕ → ℝ) => next q.1 q.2.1 q.2.2) :
    ∫⁻ us, ⨆ n, gasScattered endless a b A (slowness (A * neutronMass) t) d (speedOf neutronMass e)
        next n us ∂uniforms =
      collided A t d e fun d' e' => ∫⁻ us, next d' e' us ∂uniforms := by
  have hm := neutronMass_pos
  have hβ := slowness_pos (mul_pos hA hm) ht
  have hv := speedOf_pos hm he
  set E : Direction → ℝ → ℝ≥0∞ := fun d' e' => ∫⁻ us, next d' e' us ∂uniforms with hE
  have hEm : Measurable fun q : Direction × ℝ => E q.1 q.2 :=
    (hn.comp (by fun_prop : Measurable fun q : (Direction × ℝ) × (ℕ → ℝ) =>
      (q.1.1, q.1.2, q.2))).lintegral_prod_right'
  have hF := measurable_moving hEm
  rw [lintegral_gasScattered_iSup h A hβ hv d hn, collided_eq hEm]
  have hms : meetingSpeed A t e = meanRelativeSpeed (slowness (A * neutronMass) t)
      (speedOf neutronMass e) := by
    unfold meetingSpeed
    rw [if_neg ht.ne']
  rw [hms]
  congr 1
  set β := slowness (A * neutronMass) t
  set speed := speedOf neutronMass e
  have hs := measurable_spun (a d) (b d) d neutronMass hF
  have e1 := lintegral_spun hd (h.frame d hd) A neutronMass speed hF (fun n n' => by simp [moving])
    (w := fun x y => ENNReal.ofReal (β ^ 3 / (Real.pi * Real.sqrt Real.pi) *
      Real.exp (-(β ^ 2 * x)) * Real.sqrt y)) (by fun_prop)
  simp only [kept_moving] at e1
  refine Eq.trans ?_ e1
  have hQ : Measurable fun V => sphereMean fun n => spun (a d) (b d) d neutronMass (moving E)
      (struck A (combine speed d 0 d) V n) := by
    have e : ∀ V, (sphereMean fun n => spun (a d) (b d) d neutronMass (moving E)
        (struck A (combine speed d 0 d) V n)) = ∫⁻ n, spun (a d) (b d) d neutronMass (moving E)
        (struck A (combine speed d 0 d) V n) ∂sphereLaw := fun V =>
      (lintegral_sphereLaw (hs.comp (by fun_prop))).symm
    simp only [e]
    exact Measurable.lintegral_prod_right' (f := fun q : Point × Point =>
      spun (a d) (b d) d neutronMass (moving E) (struck A (combine speed d 0 d) q.1 q.2))
      (hs.comp (by fun_prop))
  refine Eq.trans ?_ (lintegral_met hd (h.frame d hd) (v := speed) hβ hQ)
  refine lintegral_congr fun s => lintegral_congr fun μ => ?_
  rw [lintegral_goneOn h A hβ speed d hn, lintegral_departure h A neutronMass speed s μ hF]

/-! ### Fission -/

/-- The mean score of the neutrons of a fission is their number times the mean score of one. -/
theorem lintegral_gasBirths {start : Direction → (ℕ → ℝ) → ℝ≥0∞}
    (hs : Measurable fun q : Direction × (ℕ → ℝ) => start q.1 q.2) (k : ℕ) :
    ∫⁻ us, gasBirths endless start k us ∂uniforms =
      k * sphereMean fun d => ∫⁻ us, start d us ∂uniforms := by
  induction k with
  | zero => simp [gasBirths]
  | succ k ih =>
    have mb : Measurable fun us => gasBirths endless start k us :=
      measurable_gasBirths (α := ℕ → ℝ) (start := fun _ => start) (hs.comp measurable_snd) k measurable_id
    set H : Direction → (ℕ → ℝ) → ℝ≥0∞ := fun d us =>
      start d (endless.child us) + gasBirths endless start k (endless.after us) with hH
    have mH1 : Measurable fun q : Direction × (ℕ → ℝ) => start q.1 (endless.child q.2) :=
      hs.comp (measurable_fst.prodMk (measurePreserving_child.measurable.comp measurable_snd))
    have mH : Measurable fun q : Direction × (ℕ → ℝ) => H q.1 q.2 :=
      mH1.add (mb.comp (measurePreserving_after.measurable.comp measurable_snd))
    have e0 : ∀ us, gasBirths endless start (k + 1) us =
        H (directionFrom (us 0) (us 1)) fun k => us (k + 2) := by
      intro us
      simp only [gasBirths, endless_numbers, endless_rest]
      rfl
    rw [lintegral_congr e0]
    refine (lintegral_directionFrom mH).trans ?_
    have e2 : ∀ d, ∫⁻ us, H d us ∂uniforms = ∫⁻ us, start d us ∂uniforms +
        k * sphereMean fun d => ∫⁻ us, start d us ∂uniforms := by
      intro d
      have m1 : Measurable fun us => start d us := hs.comp (measurable_const.prodMk measurable_id)
      simp only [hH]
      rw [lintegral_add_left (show Measurable fun us => start d (endless.child us) from
          m1.comp measurePreserving_child.measurable),
        measurePreserving_child.lintegral_comp m1, measurePreserving_after.lintegral_comp mb, ih]
    simp only [e2]
    rw [sphereMean_add hs.lintegral_prod_right' measurable_const, sphereMean_const]
    push_cast
    ring

/-- The mean after a reaction. -/
theorem lintegral_afterReaction (h : Frames a b) {t e : ℝ} (ht : 0 < t) (he : 0 < e) {d : Direction}
    (hd : UnitVec d) {next start : Direction → ℝ → (ℕ → ℝ) → ℝ≥0∞}
    (hn : Measurable fun q : Direction × ℝ × (ℕ → ℝ) => next q.1 q.2.1 q.2.2)
    (hs : Measurable fun q : Direction × ℝ × (ℕ → ℝ) => start q.1 q.2.1 q.2.2) {r : ContinuousReaction}
    (hA : ∀ ev tsl A, r = .scatter ev tsl A → 0 < A)
    (hy : ∀ ev nubar, r = .fission ev nubar → 0 ≤ yieldAt nubar e) :
    ∫⁻ us, afterReaction endless a b t d e next start us r ∂uniforms =
      reacted t d e (fun d' e' => ∫⁻ us, next d' e' us ∂uniforms)
        (fun d' e' => ∫⁻ us, start d' e' us ∂uniforms) r := by
  cases r with
  | capture ev => simp [afterReaction, reacted]
  | scatter ev tsl A => exact lintegral_scattered h (hA ev tsl A rfl) ht he hd hn
  | fission ev nubar =>
    have hs' : Measurable fun q : Direction × (ℕ → ℝ) => start q.1 e q.2 :=
      hs.comp (by fun_prop : Measurable fun q : Direction × (ℕ → ℝ) => (q.1, e, q.2))
    have mb : Measurable fun q : ℕ × (ℕ → ℝ) => gasBirths endless (fun d' => start d' e) q.1 q.2 :=
      measurable_from_prod_countable_right fun k =>
        measurable_gasBirths (α := ℕ → ℝ) (start := fun _ d' => start d' e)
          (hs'.comp measurable_snd) k measurable_id
    have mfl : Measurable fun q : ℝ × (ℕ → ℝ) => (⌊yieldAt nubar e + q.1⌋₊, q.2) :=
      (Nat.measurable_floor.comp (measurable_const.add measurable_fst)).prodMk measurable_snd
    refine (lintegral_first (F := fun u us => gasBirths endless (fun d' => start d' e)
      ⌊yieldAt nubar e + u⌋₊ us) (mb.comp mfl)).trans ?_
    simp only [lintegral_gasBirths (start := fun d' => start d' e) hs']
    rw [lintegral_mul_const, lintegral_yield (hy ev nubar rfl)]
    · rfl
    · exact (measurable_of_countable (fun n : ℕ => (n : ℝ≥0∞))).comp
        (Nat.measurable_floor.comp (measurable_const.add measurable_id))

/-! ### Choices -/

theorem list_sum_range {β : Type*} (l : List β) (f : β → ℝ≥0∞) :
    (l.map f).sum = ∑ i ∈ Finset.range l.length, l[i]?.elim 0 f := by
  induction l with
  | nil => simp
  | cons x l ih =>
    rw [List.map_cons, List.sum_cons, List.length_cons, Finset.sum_range_succ', ih, add_comm]
    simp

/-- The mean of a choice by weight among the items of a list. -/
theorem lintegral_choice {β : Type*} {l : List β} {f : β → ℝ} (hf : ∀ x ∈ l, 0 ≤ f x)
    {F : β → (ℕ → ℝ) → ℝ≥0∞} (hF : ∀ x, Measurable (F x)) :
    ∫⁻ us, byWeight (l.map f) (us 0) (fun i => l[i]?.elim 0 fun x => F x fun k => us (k + 1)) ∂uniforms =
      (l.map fun x => ENNReal.ofReal (f x / (l.map f).sum) * ∫⁻ us, F x us ∂uniforms).sum := by
  refine (lintegral_byWeight (ws := l.map f) (F := fun i us => l[i]?.elim 0 fun x => F x us) ?_ ?_).trans ?_
  · intro w hw
    obtain ⟨x, hx, rfl⟩ := List.mem_map.1 hw
    exact hf x hx
  · intro i
    cases l[i]? with
    | none => exact measurable_const
    | some x => exact hF x
  · rw [list_sum_range, List.length_map]
    refine Finset.sum_congr rfl fun i hi => ?_
    have hi' := Finset.mem_range.1 hi
    rw [List.getElem?_eq_getElem hi', Option.elim_some, List.getD_eq_getElem?_getD]
    simp [hi']

/-- The probabilities of the nuclide and of the reaction together. -/
theorem two_choices {β : Type*} {l : List β} {f : β → ℝ} (hf : ∀ x ∈ l, 0 ≤ f x) {p S : ℝ} (hp : 0 ≤ p)
    (hS : 0 ≤ S) (R : β → ℝ≥0∞) :
    ENNReal.ofReal (p * (l.map f).sum / S) *
        (l.map fun x => ENNReal.ofReal (f x / (l.map f).sum) * R x).sum =
      ENNReal.ofReal (p / S) * (l.map fun x => ENNReal.ofReal (f x) * R x).sum := by
  rw [← List.sum_map_mul_left (r := ENNReal.ofReal (p * (l.map f).sum / S)),
    ← List.sum_map_mul_left (r := ENNReal.ofReal (p / S))]
  congr 1
  refine List.map_congr_left fun x hx => ?_
  have h0 : 0 ≤ (l.map f).sum := List.sum_nonneg fun y hy => by
    obtain ⟨z, hz, rfl⟩ := List.mem_map.1 hy
    exact hf z hz
  have hle : f x ≤ (l.map f).sum := List.single_le_sum (fun y hy => by
    obtain ⟨z, hz, rfl⟩ := List.mem_map.1 hy
    exact hf z hz) _ (List.mem_map_of_mem hx)
  have hx0 := hf x hx
  rw [← mul_assoc, ← mul_assoc, ← ENNReal.ofReal_mul (by positivity), ← ENNReal.ofReal_mul (by positivity)]
  congr 2
  rcases h0.eq_or_lt with h | h
  · have : f x = 0 := by linarith
    simp [this]
  · field_simp

/-- The mean after a collision. -/
theorem lintegral_afterGas (h : Frames a b) {data : Nuclide → Continuous} {m : Material} {t e : ℝ}
    (ht : 0 < t) (he : 0 < e) {d : Direction} (hd : UnitVec d)
    {next start : Direction → ℝ → (ℕ → ℝ) → ℝ≥0∞}
    (hn : Measurable fun q : Direction × ℝ × (ℕ → ℝ) => next q.1 q.2.1 q.2.2)
    (hs : Measurable fun q : Direction × ℝ × (ℕ → ℝ) => start q.1 q.2.1 q.2.2)
    (hf : ∀ x ∈ m.afracs, 0 ≤ x.2)
    (hx : ∀ x ∈ m.afracs, ∀ r ∈ (data x.1).reactions, 0 ≤ reactionXS t e r)
    (hA : ∀ x ∈ m.afracs, ∀ r ∈ (data x.1).reactions, ∀ ev tsl A, r = .scatter ev tsl A → 0 < A)
    (hy : ∀ x ∈ m.afracs, ∀ r ∈ (data x.1).reactions, ∀ ev nubar, r = .fission ev nubar →
      0 ≤ yieldAt nubar e) :
    ∫⁻ us, afterGas endless a b data m t d e next start us ∂uniforms =
      (m.afracs.map fun x => ENNReal.ofReal
          (x.2 / (m.afracs.map fun x => x.2 * nuclideXS (data x.1) t e).sum) *
        ((data x.1).reactions.map fun r => ENNReal.ofReal (reactionXS t e r) *
          reacted t d e (fun d' e' => ∫⁻ us, next d' e' us ∂uniforms)
            (fun d' e' => ∫⁻ us, start d' e' us ∂uniforms) r).sum).sum := by
  have hN : ∀ x ∈ m.afracs, 0 ≤ nuclideXS (data x.1) t e := fun x hx' =>
    List.sum_nonneg fun y hy => by
      obtain ⟨z, hz, rfl⟩ := List.mem_map.1 hy
      exact hx x hx' z hz
  have mr : ∀ r, Measurable fun us => afterReaction endless a b t d e next start us r := fun r =>
    measurable_afterReaction (next := fun _ => next) (start := fun _ => start) h t
      (hn.comp measurable_snd) (hs.comp measurable_snd) measurable_const measurable_const measurable_id r
  set G : Continuous → (ℕ → ℝ) → ℝ≥0∞ := fun D us =>
    byWeight (D.reactions.map (reactionXS t e)) (us 0) fun j => D.reactions[j]?.elim 0 fun r =>
      afterReaction endless a b t d e next start (fun k => us (k + 1)) r with hG
  have mG : ∀ D, Measurable (G D) := by
    intro D
    refine measurable_byWeight _ (measurable_pi_apply 0) fun j => ?_
    cases D.reactions[j]? with
    | none => exact measurable_const
    | some r => exact (mr r).comp (measurable_shift measurable_id 1)
  have e0 : ∀ us, afterGas endless a b data m t d e next start us =
      byWeight (m.afracs.map fun x => x.2 * nuclideXS (data x.1) t e) (us 0) fun i =>
        m.afracs[i]?.elim 0 fun x => G (data x.1) fun k => us (k + 1) := by
    intro us
    unfold afterGas
    simp only [endless_numbers, endless_rest]
    rfl
  rw [lintegral_congr e0]
  refine (lintegral_choice (f := fun x : Nuclide × ℝ => x.2 * nuclideXS (data x.1) t e)
    (F := fun x us => G (data x.1) us) (fun x h => mul_nonneg (hf x h) (hN x h)) fun x => mG _).trans ?_
  congr 1
  refine List.map_congr_left fun x hxm => ?_
  have e1 := lintegral_choice (l := (data x.1).reactions) (f := reactionXS t e) (hx x hxm) mr
  have e2 : ∫⁻ us, G (data x.1) us ∂uniforms = _ := e1
  rw [e2]
  have e3 : ∀ r ∈ (data x.1).reactions, ∫⁻ us, afterReaction endless a b t d e next start us r ∂uniforms =
      reacted t d e (fun d' e' => ∫⁻ us, next d' e' us ∂uniforms)
        (fun d' e' => ∫⁻ us, start d' e' us ∂uniforms) r := fun r hr =>
    lintegral_afterReaction h ht he hd hn hs (hA x hxm r hr) (hy x hxm r hr)
  have e4 : (data x.1).reactions.map (fun r =>
      ENNReal.ofReal (reactionXS t e r / ((data x.1).reactions.map (reactionXS t e)).sum) *
        ∫⁻ us, afterReaction endless a b t d e next start us r ∂uniforms) =
      (data x.1).reactions.map (fun r =>
        ENNReal.ofReal (reactionXS t e r / ((data x.1).reactions.map (reactionXS t e)).sum) *
        reacted t d e (fun d' e' => ∫⁻ us, next d' e' us ∂uniforms)
          (fun d' e' => ∫⁻ us, start d' e' us ∂uniforms) r) :=
    List.map_congr_left fun r hr => by rw [e3 r hr]
  rw [e4]
  refine two_choices (hx x hxm) (hf x hxm) (List.sum_nonneg fun y hy => ?_) _
  obtain ⟨z, hz, rfl⟩ := List.mem_map.1 hy
  exact mul_nonneg (hf z hz) (hN z hz)

end Minimc
