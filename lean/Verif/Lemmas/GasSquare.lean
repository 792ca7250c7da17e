import Verif.Lemmas.ChainSquare
import Verif.Props.GasTransport

/-! # Chains of neutrons in gases: the square of the score -/

namespace Minimc

open Classical MeasureTheory Spec Set Props
open scoped ENNReal

variable {a b : Direction → Direction} {data : Nuclide → Continuous}

/-- Only one proposal is accepted. -/
theorem gasScattered_sq {σ : Type} (S : Supply σ) (A β : ℝ) (d : Direction) (speed : ℝ)
    (next : Direction → ℝ → σ → ℝ≥0∞) (n : ℕ) (s : σ) :
    gasScattered S a b A β d speed next n s ^ 2 =
      gasScattered S a b A β d speed (fun d e s => next d e s ^ 2) n s := by
  induction n generalizing s with
  | zero => simp [gasScattered]
  | succ n ih =>
    rw [gasScattered, gasScattered]
    generalize proposal (β * speed) (S.numbers s) = q
    obtain ⟨x, μ, k⟩ := q
    simp only
    split_ifs
    · simp
    · rfl
    · exact ih _

theorem iSup_square {f : ℕ → ℝ≥0∞} (hf : Monotone f) : (⨆ n, f n) ^ 2 = ⨆ n, f n ^ 2 := by
  refine le_antisymm ?_ (iSup_le fun n => pow_le_pow_left' (le_iSup f n) 2)
  rw [sq, ENNReal.iSup_mul]
  refine iSup_le fun i => ?_
  rw [ENNReal.mul_iSup]
  refine iSup_le fun j => ?_
  refine le_trans ?_ (le_iSup (fun n => f n ^ 2) (max i j))
  rw [sq]
  exact mul_le_mul' (hf (le_max_left _ _)) (hf (le_max_right _ _))

theorem scattered_sq (A β : ℝ) (d : Direction) (speed : ℝ) (next : Direction → ℝ → (ℕ → ℝ) → ℝ≥0∞)
    (us : ℕ → ℝ) : (⨆ n, gasScattered endless a b A β d speed next n us) ^ 2 =
      ⨆ n, gasScattered endless a b A β d speed (fun d e s => next d e s ^ 2) n us := by
  rw [iSup_square (gasScattered_monotone endless A β d speed next us)]
  exact iSup_congr fun n => gasScattered_sq endless A β d speed next n us

/-- The mean square of the score of the neutrons of a fission. -/
theorem lintegral_gasBirths_sq {start : Direction → (ℕ → ℝ) → ℝ≥0∞}
    (hs : Measurable fun q : Direction × (ℕ → ℝ) => start q.1 q.2) (k : ℕ) :
    ∫⁻ us, gasBirths endless start k us ^ 2 ∂uniforms =
      k * sphereMean (fun d => ∫⁻ us, start d us ^ 2 ∂uniforms) +
        (k * (k - 1 : ℕ) : ℕ) * sphereMean (fun d => ∫⁻ us, start d us ∂uniforms) ^ 2 := by
  induction k with
  | zero => simp [gasBirths]
  | succ k ih =>
    set T1 := sphereMean (fun d => ∫⁻ us, start d us ∂uniforms) with hT1
    set T2 := sphereMean (fun d => ∫⁻ us, start d us ^ 2 ∂uniforms) with hT2
    set B2 := ∫⁻ us, gasBirths endless start k us ^ 2 ∂uniforms with hB2
    have hb : ∫⁻ us, gasBirths endless start k us ∂uniforms = k * T1 := lintegral_gasBirths hs k
    have mb : Measurable fun us => gasBirths endless start k us :=
      measurable_gasBirths (α := ℕ → ℝ) (start := fun _ => start) (hs.comp measurable_snd) k measurable_id
    have mc := measurePreserving_child.measurable
    have ma := measurePreserving_after.measurable
    set H : Direction → (ℕ → ℝ) → ℝ≥0∞ := fun d us =>
      start d (endless.child us) + gasBirths endless start k (endless.after us) with hH
    have mH : Measurable fun q : Direction × (ℕ → ℝ) => H q.1 q.2 ^ 2 :=
      ((hs.comp (measurable_fst.prodMk (mc.comp measurable_snd))).add
        (mb.comp (ma.comp measurable_snd))).pow_const 2
    have e0 : ∀ us, gasBirths endless start (k + 1) us ^ 2 =
        (fun d us => H d us ^ 2) (directionFrom (us 0) (us 1)) fun k => us (k + 2) := by
      intro us
      simp only [gasBirths, endless_numbers, endless_rest]
      rfl
    have e2 : ∀ d, ∫⁻ us, H d us ^ 2 ∂uniforms =
        ∫⁻ us, start d us ^ 2 ∂uniforms + (2 * (k * T1) * ∫⁻ us, start d us ∂uniforms + B2) := by
      intro d
      have m1 : Measurable fun us => start d us := hs.comp (measurable_const.prodMk measurable_id)
      have hsq : ∀ us, H d us ^ 2 = start d (endless.child us) ^ 2 +
          (2 * (start d (endless.child us) * gasBirths endless start k (endless.after us)) +
            gasBirths endless start k (endless.after us) ^ 2) := by
        intro us
        simp only [hH]
        ring
      simp only [hsq]
      have q1 : Measurable fun us => start d (endless.child us) := m1.comp mc
      have q2 : Measurable fun us => gasBirths endless start k (endless.after us) := mb.comp ma
      have q3 : Measurable fun us => start d (endless.child us) *
          gasBirths endless start k (endless.after us) := q1.mul q2
      rw [lintegral_add_left (q1.pow_const 2), lintegral_add_left (q3.const_mul 2),
        lintegral_const_mul _ q3, lintegral_split m1 mb, hb,
        measurePreserving_child.lintegral_comp (m1.pow_const 2),
        measurePreserving_after.lintegral_comp (mb.pow_const 2)]
      ring
    rw [lintegral_congr e0]
    refine (lintegral_directionFrom (F := fun d us => H d us ^ 2) mH).trans ?_
    simp only [e2]
    have n1 : Measurable fun d => ∫⁻ us, start d us ∂uniforms := hs.lintegral_prod_right'
    have n2 : Measurable fun d => ∫⁻ us, start d us ^ 2 ∂uniforms :=
      (hs.pow_const 2).lintegral_prod_right'
    have n3 : Measurable fun d => 2 * (k * T1) * (∫⁻ us, start d us ∂uniforms) + B2 :=
      (n1.const_mul _).add measurable_const
    rw [sphereMean_add n2 n3, sphereMean_add (n1.const_mul _) measurable_const, sphereMean_const,
      sphereMean_const_mul n1, ih, ← hT1, ← hT2]
    cases k with
    | zero => simp
    | succ k =>
      simp only [Nat.add_sub_cancel]
      push_cast
      ring

theorem lintegral_gasBirths_sq_le {start : Direction → (ℕ → ℝ) → ℝ≥0∞}
    (hs : Measurable fun q : Direction × (ℕ → ℝ) => start q.1 q.2) {M N : ℝ≥0∞}
    (hM : ∀ d, UnitVec d → ∫⁻ us, start d us ∂uniforms ≤ M) {k : ℕ} (hk : ((k - 1 : ℕ) : ℝ≥0∞) ≤ N) :
    ∫⁻ us, gasBirths endless start k us ^ 2 ∂uniforms ≤
      ∫⁻ us, gasBirths endless (fun d us => start d us ^ 2 + N * M ^ 2) k us ∂uniforms := by
  have hs2 : Measurable fun q : Direction × (ℕ → ℝ) => start q.1 q.2 ^ 2 + N * M ^ 2 :=
    (hs.pow_const 2).add measurable_const
  rw [lintegral_gasBirths_sq hs, lintegral_gasBirths hs2]
  have e1 : ∀ d, ∫⁻ us, (start d us ^ 2 + N * M ^ 2) ∂uniforms =
      ∫⁻ us, start d us ^ 2 ∂uniforms + N * M ^ 2 := by
    intro d
    rw [lintegral_add_right _ measurable_const]
    simp
  simp only [e1]
  rw [sphereMean_add (hs.pow_const 2).lintegral_prod_right' measurable_const, sphereMean_const, mul_add]
  refine add_le_add le_rfl ?_
  rw [Nat.cast_mul, mul_assoc]
  exact mul_le_mul_right (mul_le_mul' hk (pow_le_pow_left' (sphereMean_le hM) 2)) _

/-- The mean square after a reaction. -/
theorem lintegral_afterReaction_sq (t : ℝ) {e : ℝ} (d : Direction)
    {next start : Direction → ℝ → (ℕ → ℝ) → ℝ≥0∞}
    (hs : Measurable fun q : Direction × ℝ × (ℕ → ℝ) => start q.1 q.2.1 q.2.2) {M N : ℝ≥0∞}
    (hM : ∀ d, UnitVec d → ∫⁻ us, start d e us ∂uniforms ≤ M) {r : ContinuousReaction}
    (hy : ∀ ev nubar, r = .fission ev nubar → 0 ≤ yieldAt nubar e)
    (hN : ∀ ev nubar, r = .fission ev nubar → ENNReal.ofReal (yieldAt nubar e) ≤ N) :
    ∫⁻ us, afterReaction endless a b t d e next start us r ^ 2 ∂uniforms ≤
      ∫⁻ us, afterReaction endless a b t d e (fun d e us => next d e us ^ 2)
        (fun d e us => start d e us ^ 2 + N * M ^ 2) us r ∂uniforms := by
  cases r with
  | capture ev => simp [afterReaction]
  | scatter ev tsl A =>
    refine le_of_eq (lintegral_congr fun us => ?_)
    exact scattered_sq A _ d _ next us
  | fission ev nubar =>
    have hs' : Measurable fun q : Direction × (ℕ → ℝ) => start q.1 e q.2 :=
      hs.comp (by fun_prop : Measurable fun q : Direction × (ℕ → ℝ) => (q.1, e, q.2))
    have mb : ∀ {start : Direction → (ℕ → ℝ) → ℝ≥0∞}
        (_ : Measurable fun q : Direction × (ℕ → ℝ) => start q.1 q.2),
        Measurable fun q : ℕ × (ℕ → ℝ) => gasBirths endless start q.1 q.2 := fun {start} hs =>
      measurable_from_prod_countable_right fun k =>
        measurable_gasBirths (α := ℕ → ℝ) (start := fun _ => start) (hs.comp measurable_snd) k measurable_id
    have mfl : Measurable fun q : ℝ × (ℕ → ℝ) => (⌊yieldAt nubar e + q.1⌋₊, q.2) :=
      (Nat.measurable_floor.comp (measurable_const.add measurable_fst)).prodMk measurable_snd
    have hs2 : Measurable fun q : Direction × (ℕ → ℝ) => start q.1 e q.2 ^ 2 + N * M ^ 2 :=
      (hs'.pow_const 2).add measurable_const
    have mf2 : Measurable fun q : ℝ × (ℕ → ℝ) => gasBirths endless
        (fun d' us => start d' e us ^ 2 + N * M ^ 2) ⌊yieldAt nubar e + q.1⌋₊ q.2 :=
      (mb (start := fun d' us => start d' e us ^ 2 + N * M ^ 2) hs2).comp mfl
    refine (lintegral_first (F := fun u us => gasBirths endless (fun d' => start d' e)
      ⌊yieldAt nubar e + u⌋₊ us ^ 2) (((mb hs').comp mfl).pow_const 2)).le.trans ?_
    refine le_trans ?_ (lintegral_first (F := fun u us => gasBirths endless
      (fun d' us => start d' e us ^ 2 + N * M ^ 2) ⌊yieldAt nubar e + u⌋₊ us)
      mf2).ge
    unfold uniform
    refine setLIntegral_mono' measurableSet_Ico fun u hu => lintegral_gasBirths_sq_le hs' hM ?_
    refine le_trans ?_ (hN ev nubar rfl)
    rw [← ENNReal.ofReal_natCast]
    refine ENNReal.ofReal_le_ofReal ?_
    have h0 := hy ev nubar rfl
    rcases Nat.eq_zero_or_pos ⌊yieldAt nubar e + u⌋₊ with hk | hk
    · rw [hk]
      simpa using h0
    · rw [Nat.cast_sub hk]
      have := Nat.floor_le (a := yieldAt nubar e + u) (by linarith [hu.1])
      push_cast
      linarith [hu.2]

/-- The mean square after a collision. -/
theorem lintegral_afterGas_sq (h : Frames a b) {m : Material} {t e : ℝ} {d : Direction}
    {next start : Direction → ℝ → (ℕ → ℝ) → ℝ≥0∞}
    (hn : Measurable fun q : Direction × ℝ × (ℕ → ℝ) => next q.1 q.2.1 q.2.2)
    (hs : Measurable fun q : Direction × ℝ × (ℕ → ℝ) => start q.1 q.2.1 q.2.2) {M N : ℝ≥0∞}
    (hM : ∀ d, UnitVec d → ∫⁻ us, start d e us ∂uniforms ≤ M)
    (hf : ∀ x ∈ m.afracs, 0 ≤ x.2)
    (hx : ∀ x ∈ m.afracs, ∀ r ∈ (data x.1).reactions, 0 ≤ reactionXS t e r)
    (hy : ∀ x ∈ m.afracs, ∀ r ∈ (data x.1).reactions, ∀ ev nubar, r = .fission ev nubar →
      0 ≤ yieldAt nubar e)
    (hN : ∀ x ∈ m.afracs, ∀ r ∈ (data x.1).reactions, ∀ ev nubar, r = .fission ev nubar →
      ENNReal.ofReal (yieldAt nubar e) ≤ N) :
    ∫⁻ us, afterGas endless a b data m t d e next start us ^ 2 ∂uniforms ≤
      ∫⁻ us, afterGas endless a b data m t d e (fun d e us => next d e us ^ 2)
        (fun d e us => start d e us ^ 2 + N * M ^ 2) us ∂uniforms := by
  have hX : ∀ x ∈ m.afracs, 0 ≤ nuclideXS (data x.1) t e := fun x hx' =>
    List.sum_nonneg fun y hy => by
      obtain ⟨z, hz, rfl⟩ := List.mem_map.1 hy
      exact hx x hx' z hz
  have mr : ∀ {next start : Direction → ℝ → (ℕ → ℝ) → ℝ≥0∞}
      (_ : Measurable fun q : Direction × ℝ × (ℕ → ℝ) => next q.1 q.2.1 q.2.2)
      (_ : Measurable fun q : Direction × ℝ × (ℕ → ℝ) => start q.1 q.2.1 q.2.2) (r),
      Measurable fun us => afterReaction endless a b t d e next start us r := fun {next start} hn hs r =>
    measurable_afterReaction (next := fun _ => next) (start := fun _ => start) h t
      (hn.comp measurable_snd) (hs.comp measurable_snd) measurable_const measurable_const measurable_id r
  have mr1 := fun r => (mr hn hs r).pow_const 2
  have mr2 := mr (next := fun d e us => next d e us ^ 2) (start := fun d e us => start d e us ^ 2 + N * M ^ 2)
    (hn.pow_const 2) ((hs.pow_const 2).add measurable_const)
  set R1 : ContinuousReaction → (ℕ → ℝ) → ℝ≥0∞ := fun r us =>
    afterReaction endless a b t d e next start us r ^ 2 with hR1
  set R2 : ContinuousReaction → (ℕ → ℝ) → ℝ≥0∞ := fun r us =>
    afterReaction endless a b t d e (fun d e us => next d e us ^ 2)
        (fun d e us => start d e us ^ 2 + N * M ^ 2) us r with hR2
  set G : (ContinuousReaction → (ℕ → ℝ) → ℝ≥0∞) → Continuous → (ℕ → ℝ) → ℝ≥0∞ := fun R D us =>
    byWeight (D.reactions.map (reactionXS t e)) (us 0) fun j => D.reactions[j]?.elim 0 fun r =>
      R r fun k => us (k + 1) with hG
  have mG : ∀ {R : ContinuousReaction → (ℕ → ℝ) → ℝ≥0∞} (_ : ∀ r, Measurable (R r)) (D),
      Measurable (G R D) := by
    intro R hR D
    refine measurable_byWeight _ (measurable_pi_apply 0) fun j => ?_
    cases D.reactions[j]? with
    | none => exact measurable_const
    | some r => exact (hR r).comp (measurable_shift measurable_id 1)
  have w1 : ∀ x ∈ m.afracs.map (fun x : Nuclide × ℝ => x.2 * nuclideXS (data x.1) t e), 0 ≤ x := by
    intro y hy'
    obtain ⟨x, hx', rfl⟩ := List.mem_map.1 hy'
    exact mul_nonneg (hf x hx') (hX x hx')
  have w2 : ∀ x ∈ m.afracs, ∀ y ∈ (data x.1).reactions.map (reactionXS t e), 0 ≤ y := by
    intro x hx' y hy'
    obtain ⟨r, hr, rfl⟩ := List.mem_map.1 hy'
    exact hx x hx' r hr
  have e1 : ∀ us, afterGas endless a b data m t d e next start us ^ 2 =
      byWeight (m.afracs.map fun x => x.2 * nuclideXS (data x.1) t e) (us 0) fun i =>
        m.afracs[i]?.elim 0 fun x => G R1 (data x.1) fun k => us (k + 1) := by
    intro us
    unfold afterGas
    rw [byWeight_sq w1]
    simp only [endless_numbers, endless_rest]
    congr 1
    funext i
    cases hi : m.afracs[i]? with
    | none => simp
    | some x =>
      simp only [Option.elim_some, hG]
      rw [byWeight_sq (w2 x (List.mem_of_getElem? hi))]
      congr 1
      funext j
      cases (data x.1).reactions[j]? with
      | none => simp
      | some r => rfl
  have e2 : ∀ us, afterGas endless a b data m t d e (fun d e us => next d e us ^ 2)
        (fun d e us => start d e us ^ 2 + N * M ^ 2) us =
      byWeight (m.afracs.map fun x => x.2 * nuclideXS (data x.1) t e) (us 0) fun i =>
        m.afracs[i]?.elim 0 fun x => G R2 (data x.1) fun k => us (k + 1) := by
    intro us
    unfold afterGas
    simp only [endless_numbers, endless_rest]
    rfl
  have key : ∀ {R : ContinuousReaction → (ℕ → ℝ) → ℝ≥0∞} (_ : ∀ r, Measurable (R r)), _ :=
    fun {R} hR => lintegral_choice (l := m.afracs) (f := fun x : Nuclide × ℝ => x.2 * nuclideXS (data x.1) t e)
      (F := fun x us => G R (data x.1) us) (fun x h => mul_nonneg (hf x h) (hX x h)) fun x => mG hR _
  rw [lintegral_congr e1, lintegral_congr e2, key mr1, key mr2]
  refine List.sum_le_sum fun x hxm => ?_
  gcongr ENNReal.ofReal _ * ?_
  have key2 : ∀ {R : ContinuousReaction → (ℕ → ℝ) → ℝ≥0∞} (_ : ∀ r, Measurable (R r)),
      ∫⁻ us, G R (data x.1) us ∂uniforms = _ := fun {R} hR =>
    lintegral_choice (l := (data x.1).reactions) (f := reactionXS t e) (F := R) (hx x hxm) hR
  rw [key2 mr1, key2 mr2]
  refine List.sum_le_sum fun r hr => ?_
  gcongr ENNReal.ofReal _ * ?_
  exact lintegral_afterReaction_sq t d hs hM (hy x hxm r hr) (hN x hxm r hr)

/-! ### Sums -/

theorem ofVelocity_affine (E : Direction → ℝ → ℝ≥0∞) (α C : ℝ≥0∞) (v : Point) :
    ofVelocity (fun d e => α * E d e + C) v = α * ofVelocity E v + C * ofVelocity (fun _ _ => 1) v := by
  unfold ofVelocity
  split_ifs <;> simp

theorem weighted_affine {μ : Measure Point} {W : Point → ℝ≥0∞} (hW : Measurable W)
    {f g : Point → Direction → ℝ≥0∞} (hf : Measurable fun q : Point × Direction => f q.1 q.2)
    (hg : Measurable fun q : Point × Direction => g q.1 q.2) (α C : ℝ≥0∞) :
    ∫⁻ V, W V * sphereMean (fun n => α * f V n + C * g V n) ∂μ =
      α * (∫⁻ V, W V * sphereMean (f V) ∂μ) + C * ∫⁻ V, W V * sphereMean (g V) ∂μ := by
  have mf : Measurable fun V => W V * sphereMean (f V) := hW.mul (measurable_sphereMean' hf)
  have mg : Measurable fun V => W V * sphereMean (g V) := hW.mul (measurable_sphereMean' hg)
  rw [← lintegral_const_mul α mf, ← lintegral_const_mul C mg, ← lintegral_add_left (mf.const_mul α)]
  refine lintegral_congr fun V => ?_
  have nf : Measurable fun n => f V n := hf.comp (measurable_const.prodMk measurable_id)
  have ng : Measurable fun n => g V n := hg.comp (measurable_const.prodMk measurable_id)
  rw [sphereMean_add (nf.const_mul α) (ng.const_mul C), sphereMean_const_mul nf, sphereMean_const_mul ng]
  ring

theorem collided_affine {A t : ℝ} {d : Direction} {e : ℝ} {E : Direction → ℝ → ℝ≥0∞}
    (hE : Measurable fun q : Direction × ℝ => E q.1 q.2) (α C : ℝ≥0∞) :
    collided A t d e (fun d e => α * E d e + C) =
      α * collided A t d e E + C * collided A t d e (fun _ _ => 1) := by
  have h1 : Measurable fun q : Direction × ℝ => (fun _ _ => 1 : Direction → ℝ → ℝ≥0∞) q.1 q.2 :=
    measurable_const
  have h2 : Measurable fun q : Direction × ℝ => α * E q.1 q.2 + C := (hE.const_mul α).add measurable_const
  have mv : ∀ {E : Direction → ℝ → ℝ≥0∞} (_ : Measurable fun q : Direction × ℝ => E q.1 q.2),
      Measurable fun q : Point × Direction =>
        ofVelocity E (struck A (combine (speedOf neutronMass e) d 0 d) q.1 q.2) := fun {E} hE =>
    (measurable_ofVelocity hE).comp (by fun_prop)
  have mw : Measurable fun V : Point => ENNReal.ofReal (gasDensity (slowness (A * neutronMass) t) V *
      Real.sqrt (normSq (combine 1 (combine (speedOf neutronMass e) d 0 d) (-1) V))) := by
    unfold gasDensity
    fun_prop
  have key := weighted_affine (μ := spaceVolume)
    (f := fun V n => ofVelocity E (struck A (combine (speedOf neutronMass e) d 0 d) V n))
    (g := fun V n => ofVelocity (fun _ _ => 1) (struck A (combine (speedOf neutronMass e) d 0 d) V n))
    mw (mv hE) (mv h1) α C
  rw [collided_eq hE, collided_eq (E := fun _ _ => 1) h1, collided_eq (E := fun d e => α * E d e + C) h2]
  simp only [ofVelocity_affine]
  rw [key]
  ring

theorem reacted_affine {t : ℝ} {d : Direction} {e : ℝ} {E F : Direction → ℝ → ℝ≥0∞}
    (hE : Measurable fun q : Direction × ℝ => E q.1 q.2)
    (hF : Measurable fun q : Direction × ℝ => F q.1 q.2) (α C : ℝ≥0∞) (r : ContinuousReaction) :
    reacted t d e (fun d e => α * E d e + C) (fun d e => α * F d e + C) r =
      α * reacted t d e E F r + C * reacted t d e (fun _ _ => 1) (fun _ _ => 1) r := by
  cases r with
  | capture ev => simp [reacted]
  | scatter ev tsl A => exact collided_affine hE α C
  | fission ev nubar =>
    have hF' : Measurable fun d' => F d' e := hF.comp (measurable_id.prodMk measurable_const)
    simp only [reacted]
    rw [sphereMean_add (hF'.const_mul α) measurable_const, sphereMean_const_mul hF', sphereMean_const,
      sphereMean_const]
    ring

theorem list_sum_affine {β : Type} (l : List β) (k f g : β → ℝ≥0∞) (α C : ℝ≥0∞) :
    (l.map fun x => k x * (α * f x + C * g x)).sum =
      α * (l.map fun x => k x * f x).sum + C * (l.map fun x => k x * g x).sum := by
  induction l with
  | nil => simp
  | cons x l ih =>
    simp only [List.map_cons, List.sum_cons, ih]
    ring

theorem gasEmission_affine {m : Material} {t : ℝ} {d : Direction} {e : ℝ} {E F : Direction → ℝ → ℝ≥0∞}
    (hE : Measurable fun q : Direction × ℝ => E q.1 q.2)
    (hF : Measurable fun q : Direction × ℝ => F q.1 q.2) (α C : ℝ≥0∞) :
    gasEmission data m t d e (fun d e => α * E d e + C) (fun d e => α * F d e + C) =
      α * gasEmission data m t d e E F + C * gasEmission data m t d e (fun _ _ => 1) (fun _ _ => 1) := by
  unfold gasEmission
  simp only [reacted_affine hE hF, list_sum_affine]
  ring

/-! ### One more round -/

variable {w : World} {method : Method} {hit : SurfaceObj → Direction → ℝ → ℝ≥0∞} {c : Cell} {m : Material}
  {e : ℝ}

/-- The mean square of the score in the first rounds. -/
noncomputable def gasSquare (a b : Direction → Direction) (data : Nuclide → Continuous) (w : World)
    (method : Method) (hit : SurfaceObj → Direction → ℝ → ℝ≥0∞) (n : ℕ) (c : Cell) (x : Point)
    (d : Direction) (e : ℝ) : ℝ≥0∞ :=
  ∫⁻ us, gasScore endless a b data w method hit n c x d e us ^ 2 ∂uniforms

/-- The mean square after a collision on the way. -/
theorem lintegral_gasCollision_sq (h : Frames a b) (hw : GasWorld data w)
    (hh : ∀ s, Measurable fun q : Direction × ℝ => hit s q.1 q.2) (n : ℕ) (hc : c ∈ w.cells)
    (hm : c.material = some m) (y : Point) {d : Direction} (hd : UnitVec d) (he : 0 < e) {M N : ℝ≥0∞}
    (hM : ∀ c', cellAt w y = some c' → ∀ d, UnitVec d → gasMean a b data w method hit n c' y d e ≤ M)
    (hN : ∀ x ∈ m.afracs, ∀ r ∈ (data x.1).reactions, ∀ ev nubar, r = .fission ev nubar →
      ENNReal.ofReal (yieldAt nubar e) ≤ N) :
    ENNReal.ofReal (collisionRate data m (heat c) e) * ∫⁻ us, afterGas endless a b data m (heat c) d e
        (gasScore endless a b data w method hit n c y)
        (beginning w (gasScore endless a b data w method hit n) y)
        (fun k => us (k + (drawnBefore method - 1))) ^ 2 ∂uniforms ≤
      gasEmission data m (heat c) d e (gasSquare a b data w method hit n c y) fun d' e' =>
        ((cellAt w y).elim 0 fun c' => gasSquare a b data w method hit n c' y d' e') + N * M ^ 2 := by
  have hS := hw.shares_pos hc hm he
  have hden := hw.sound.density c hc m hm
  have ms : ∀ c', Measurable fun q : Direction × ℝ × (ℕ → ℝ) =>
      gasScore endless a b data w method hit n c' y q.1 q.2.1 q.2.2 := fun c' =>
    (measurable_gasScore h data w method hh n c').comp (measurable_const.prodMk measurable_id)
  have mb : Measurable fun q : Direction × ℝ × (ℕ → ℝ) =>
      beginning w (gasScore endless a b data w method hit n) y q.1 q.2.1 q.2.2 := by
    unfold beginning
    cases cellAt w y with
    | none => exact measurable_const
    | some c' => exact ms c'
  have mcoll : Measurable fun us => afterGas endless a b data m (heat c) d e
      (gasScore endless a b data w method hit n c y)
      (beginning w (gasScore endless a b data w method hit n) y) us :=
    measurable_afterGas (α := ℕ → ℝ) h data m (heat c)
      (next := fun _ => gasScore endless a b data w method hit n c y)
      (start := fun _ => beginning w (gasScore endless a b data w method hit n) y)
      ((ms c).comp measurable_snd) (mb.comp measurable_snd) measurable_const measurable_const measurable_id
  have eB : ∫⁻ us, afterGas endless a b data m (heat c) d e
        (gasScore endless a b data w method hit n c y)
        (beginning w (gasScore endless a b data w method hit n) y)
        (fun k => us (k + (drawnBefore method - 1))) ^ 2 ∂uniforms =
      ∫⁻ us, afterGas endless a b data m (heat c) d e
        (gasScore endless a b data w method hit n c y)
        (beginning w (gasScore endless a b data w method hit n) y) us ^ 2 ∂uniforms := by
    cases method
    · rfl
    · exact lintegral_skip (mcoll.pow_const 2)
  have hr := fun x (hx : x ∈ m.afracs) r hr => hw.reaction hc hm hx (r := r) hr he
  have hM' : ∀ d, UnitVec d →
      ∫⁻ us, beginning w (gasScore endless a b data w method hit n) y d e us ∂uniforms ≤ M := by
    intro d hd
    rw [lintegral_beginning]
    cases hcl : cellAt w y with
    | none => exact zero_le
    | some c' => exact hM c' hcl d hd
  rw [eB]
  have key := lintegral_afterGas_sq (data := data) (m := m) (t := heat c) (e := e) (d := d) h (ms c) mb hM'
    (fun x hx => (hw.nuclide hc hm hx).1.le)
    (fun x hx r h => (hr x hx r h).2.2.1.trans (hr x hx r h).2.2.2.1)
    (fun x hx r h => (hr x hx r h).2.2.2.2.2) hN
  rw [lintegral_afterGas h (hw.temperature hc hm).1 he hd ((ms c).pow_const 2)
    ((mb.pow_const 2).add measurable_const) (fun x hx => (hw.nuclide hc hm hx).1.le)
    (fun x hx r h => (hr x hx r h).2.2.1.trans (hr x hx r h).2.2.2.1)
    (fun x hx r h => (hr x hx r h).2.2.2.2.1) (fun x hx r h => (hr x hx r h).2.2.2.2.2)] at key
  refine (mul_le_mul_right key _).trans (le_of_eq ?_)
  have e3 : ∀ d' e', ∫⁻ us, (beginning w (gasScore endless a b data w method hit n) y d' e' us ^ 2 +
      N * M ^ 2) ∂uniforms =
      ((cellAt w y).elim 0 fun c' => gasSquare a b data w method hit n c' y d' e') + N * M ^ 2 := by
    intro d' e'
    rw [lintegral_add_right _ measurable_const, lintegral_const, measure_univ, mul_one]
    congr 1
    unfold beginning
    cases cellAt w y with
    | none => simp
    | some c' => rfl
  unfold gasEmission
  simp only [e3]
  rw [← List.sum_map_mul_left, ← List.sum_map_mul_left]
  congr 1
  refine List.map_congr_left fun x hx => ?_
  have hx0 := (hw.nuclide hc hm hx).1
  rw [← mul_assoc, ← mul_assoc, ← ENNReal.ofReal_mul (hw.rate_pos hc hm he).le,
    ← ENNReal.ofReal_mul hden.le]
  congr 2
  unfold collisionRate
  field_simp

theorem gasSquare_succ (h : Frames a b) (hw : GasWorld data w) (method : Method)
    (hh : ∀ s, Measurable fun q : Direction × ℝ => hit s q.1 q.2) (n : ℕ) (hc : c ∈ w.cells)
    (hm : c.material = some m) (x : Point) {d : Direction} (he : 0 < e) :
    gasSquare a b data w method hit (n + 1) c x d e =
      (∫⁻ s in {s : ℝ | 0 < s ∧ (s : WithTop ℝ) < ahead c x d},
        ENNReal.ofReal (collisionRate data m (heat c) e *
          Real.exp (-(collisionRate data m (heat c) e * s))) *
          ∫⁻ us, afterGas endless a b data m (heat c) d e
            (gasScore endless a b data w method hit n c (along x d s))
            (beginning w (gasScore endless a b data w method hit n) (along x d s))
            (fun k => us (k + (drawnBefore method - 1))) ^ 2 ∂uniforms) +
      if ahead c x d = ⊤ then 0 else
        ENNReal.ofReal (Real.exp (-(collisionRate data m (heat c) e * (ahead c x d).untopD 0))) *
          ∫⁻ us, gasCrossed w hit (fun c x d e => gasScore endless a b data w method hit n c x d e us)
            c x d e ^ 2 ∂uniforms := by
  have hM := hw.rate_pos hc hm he
  set M := collisionRate data m (heat c) e with hMd
  have msu : ∀ c x, Measurable fun us => gasScore endless a b data w method hit n c x d e us :=
    fun c x => (measurable_gasScore h data w method hh n c).comp
      (measurable_const.prodMk (measurable_const.prodMk (measurable_const.prodMk measurable_id)))
  have mA := measurable_gasCrossed (w := w) (hit := hit) (c := c) (x := x) (d := d) (e := e)
    (E := fun us c x d e => gasScore endless a b data w method hit n c x d e us) msu
  have hal : Measurable fun q : (ℝ × (ℕ → ℝ)) × Direction × ℝ × (ℕ → ℝ) => along x d q.1.1 :=
    Measurable.along measurable_const measurable_const (by fun_prop)
  have mB : Measurable fun q : ℝ × (ℕ → ℝ) => afterGas endless a b data m (heat c) d e
      (gasScore endless a b data w method hit n c (along x d q.1))
      (beginning w (gasScore endless a b data w method hit n) (along x d q.1))
      fun k => q.2 (k + (drawnBefore method - 1)) := by
    refine measurable_afterGas h data m (heat c)
      (next := fun q : ℝ × (ℕ → ℝ) => gasScore endless a b data w method hit n c (along x d q.1))
      (start := fun q : ℝ × (ℕ → ℝ) => beginning w (gasScore endless a b data w method hit n)
        (along x d q.1)) ?_ ?_ measurable_const measurable_const (measurable_shift measurable_snd _)
    · exact (measurable_gasScore h data w method hh n c).comp (hal.prodMk measurable_snd)
    · exact measurable_cellAt w hal fun c' _ =>
        (measurable_gasScore h data w method hh n c').comp (hal.prodMk measurable_snd)
  have hl : Measurable fun q : ℝ × (ℕ → ℝ) => -Real.log (1 - q.1) / M := by fun_prop
  have hF := @Measurable.ite _ _ _ _ _ _ _ (fun _ => propDecidable _)
    (measurableSet_reaches' method (t := fun _ => ahead c x d) measurable_const hl)
    ((mA.comp measurable_snd).pow_const 2) ((mB.comp (hl.prodMk measurable_snd)).pow_const 2)
  set K : ℝ → (ℕ → ℝ) → ℝ≥0∞ := fun u us =>
    if FliesTo method (ahead c x d) (-Real.log (1 - u) / M) then
      gasCrossed w hit (fun c x d e => gasScore endless a b data w method hit n c x d e us) c x d e ^ 2
    else afterGas endless a b data m (heat c) d e
      (gasScore endless a b data w method hit n c (along x d (-Real.log (1 - u) / M)))
      (beginning w (gasScore endless a b data w method hit n) (along x d (-Real.log (1 - u) / M)))
      (fun k => us (k + (drawnBefore method - 1))) ^ 2 with hK
  have e0 : ∀ us : ℕ → ℝ, gasScore endless a b data w method hit (n + 1) c x d e us ^ 2 =
      K (us 0) fun k => us (k + 1) := by
    intro us
    rw [gasScore_succ hm]
    simp only [endless_rest, endless_number, hK]
    split_ifs
    · rfl
    · cases method <;> rfl
  have e1 : ∀ u : ℝ, ∫⁻ us, K u us ∂uniforms =
      if FliesTo method (ahead c x d) (-Real.log (1 - u) / M) then
        ∫⁻ us, gasCrossed w hit (fun c x d e => gasScore endless a b data w method hit n c x d e us)
          c x d e ^ 2 ∂uniforms
      else (fun y => ∫⁻ us, afterGas endless a b data m (heat c) d e
          (gasScore endless a b data w method hit n c (along x d y))
          (beginning w (gasScore endless a b data w method hit n) (along x d y))
          (fun k => us (k + (drawnBefore method - 1))) ^ 2 ∂uniforms) (-Real.log (1 - u) / M) := by
    intro u
    simp only [hK]
    split_ifs <;> rfl
  refine (lintegral_congr e0).trans ((lintegral_first (F := K) hF).trans ((lintegral_congr e1).trans ?_))
  exact lintegral_round c method hM (t := ahead c x d) (fun r hr => ahead_pos hr)
    (∫⁻ us, gasCrossed w hit (fun c x d e => gasScore endless a b data w method hit n c x d e us)
          c x d e ^ 2 ∂uniforms)
    fun y => ∫⁻ us, afterGas endless a b data m (heat c) d e
          (gasScore endless a b data w method hit n c (along x d y))
          (beginning w (gasScore endless a b data w method hit n) (along x d y))
          (fun k => us (k + (drawnBefore method - 1))) ^ 2 ∂uniforms

/-- A bound for the mean square of the score of a chain. -/
theorem gasSquare_le (h : Frames a b) (hw : GasWorld data w)
    (hh : ∀ s, Measurable fun q : Direction × ℝ => hit s q.1 q.2)
    (hone : ∀ s d e, hit s d e ≤ 1) {S : Cell → Point → Prop}
    (hstay : ∀ c ∈ w.cells, c.material ≠ none → ∀ x d (s : ℝ), S c x → UnitVec d → 0 < s →
      (s : WithTop ℝ) < ahead c x d → S c (along x d s) ∧
        ∀ c', cellAt w (along x d s) = some c' → S c' (along x d s))
    (hnext : ∀ c ∈ w.cells, c.material ≠ none → ∀ x d, S c x → UnitVec d → ahead c x d ≠ ⊤ → ∀ s c',
      faced c x d = some s → cellAt w (beyond c x d) = some c' → S c' (beyond c x d))
    {M N K : ℝ≥0∞} (hMtop : M ≠ ⊤)
    (hM : ∀ c ∈ w.cells, ∀ x d, S c x → UnitVec d → ∀ e, 0 < e →
      meanGas a b data w method hit c x d e ≤ M)
    (hN : ∀ c ∈ w.cells, ∀ m, c.material = some m → ∀ x ∈ m.afracs, ∀ r ∈ (data x.1).reactions,
      ∀ ev nubar, r = .fission ev nubar → ∀ e, 0 < e → ENNReal.ofReal (yieldAt nubar e) ≤ N)
    (hK : ∀ c ∈ w.cells, ∀ m, c.material = some m → ∀ e, 0 < e →
      ENNReal.ofReal (neutronRate data m (heat c) e) * (K + N * M ^ 2) ≤
        ENNReal.ofReal (collisionRate data m (heat c) e) * K)
    (n : ℕ) {c : Cell} (hc : c ∈ w.cells) {x : Point} (hx : S c x) {d : Direction} (hd : UnitVec d)
    {e : ℝ} (he : 0 < e) :
    gasSquare a b data w method hit n c x d e ≤
      (1 + 2 * M) * meanGas a b data w method hit c x d e + K := by
  have hM' : ∀ n, ∀ c ∈ w.cells, ∀ x d, S c x → UnitVec d → ∀ e, 0 < e →
      gasMean a b data w method hit n c x d e ≤ M := fun n c hc x d hx hd e he =>
    (le_iSup (fun n => gasMean a b data w method hit n c x d e) n).trans
      ((meanGas_eq h hh c x d e).ge.trans (hM c hc x d hx hd e he))
  induction n generalizing c x d e with
  | zero =>
    unfold gasSquare
    simp [gasScore]
  | succ n ih =>
    cases hm : c.material with
    | none =>
      unfold gasSquare
      simp [gasScore_none hm]
    | some m =>
      have hmn : c.material ≠ none := by rw [hm]; simp
      have hpos := hw.rate_pos hc hm he
      set E := meanGas a b data w method hit with hE
      have mE : ∀ c', Measurable fun q : Point × Direction × ℝ => E c' q.1 q.2.1 q.2.2 := by
        intro c'
        have : (fun q : Point × Direction × ℝ => E c' q.1 q.2.1 q.2.2) = fun q =>
            ⨆ n, gasMean a b data w method hit n c' q.1 q.2.1 q.2.2 := by
          funext q
          exact meanGas_eq h hh c' q.1 q.2.1 q.2.2
        rw [this]
        exact Measurable.iSup fun n => measurable_gasMean h hh n c'
      have mEx : ∀ c' y, Measurable fun q : Direction × ℝ => E c' y q.1 q.2 := fun c' y =>
        (mE c').comp (measurable_const.prodMk measurable_id)
      have mF : ∀ y, Measurable fun q : Direction × ℝ => (cellAt w y).elim 0 fun c' => E c' y q.1 q.2 := by
        intro y
        cases cellAt w y with
        | none => exact measurable_const
        | some c' => exact mEx c' y
      have hone' := lintegral_round c method hpos (t := ahead c x d) (fun _ h => ahead_pos h) 1 fun _ => 1
      have hl : ∫⁻ u, (if FliesTo method (ahead c x d) (-Real.log (1 - u) / collisionRate data m (heat c) e)
          then (1 : ℝ≥0∞) else 1) ∂uniform = 1 := by
        simp
      rw [hl] at hone'
      simp only [mul_one] at hone'
      rw [gasSquare_succ h hw method hh n hc hm x he, hE, Props.C81_equation h hw method hh hc x hd he,
        ← hE, gasTransported_some hm]
      set rate := collisionRate data m (heat c) e with hrate
      set Q : ℝ → ℝ≥0∞ := fun s => gasEmission data m (heat c) d e (E c (along x d s)) fun d' e' =>
            (cellAt w (along x d s)).elim 0 fun c' => E c' (along x d s) d' e' with hQ
      -- a collision on the way
      have hcoll : ∀ s ∈ {s : ℝ | 0 < s ∧ (s : WithTop ℝ) < ahead c x d},
          ENNReal.ofReal (rate * Real.exp (-(rate * s))) *
            ∫⁻ us, afterGas endless a b data m (heat c) d e
              (gasScore endless a b data w method hit n c (along x d s))
              (beginning w (gasScore endless a b data w method hit n) (along x d s))
              (fun k => us (k + (drawnBefore method - 1))) ^ 2 ∂uniforms ≤
          (1 + 2 * M) * (ENNReal.ofReal (Real.exp (-(rate * s))) * Q s) +
            K * ENNReal.ofReal (rate * Real.exp (-(rate * s))) := by
        intro s hs
        obtain ⟨s1, s2⟩ := hstay c hc hmn x d s hx hd hs.1 hs.2
        have hle := lintegral_gasCollision_sq (method := method) h hw hh n hc hm (along x d s) hd he
          (M := M) (N := N) (fun c' hcl d' hd' => hM' n c' (cellAt_mem hcl) _ d' (s2 c' hcl) hd' e he)
          (fun z hz r hr ev nubar hev => hN c hc m hm z hz r hr ev nubar hev e he)
        rw [← hrate] at hle
        have b1 := hle.trans (gasEmission_mono (data := data) (m := m) (t := heat c) (d := d) he
          (E' := fun d' e' => (1 + 2 * M) * E c (along x d s) d' e' + (K + N * M ^ 2))
          (F' := fun d' e' => (1 + 2 * M) *
            ((cellAt w (along x d s)).elim 0 fun c' => E c' (along x d s) d' e') + (K + N * M ^ 2))
          (fun d' e' hd' he' => (ih hc s1 hd' he').trans (by rw [← add_assoc]; exact le_self_add))
          (fun d' e' hd' he' => by
            rw [← add_assoc]
            refine add_le_add ?_ le_rfl
            cases hcl : cellAt w (along x d s) with
            | none => exact zero_le
            | some c' => exact ih (cellAt_mem hcl) (s2 c' hcl) hd' he'))
        rw [gasEmission_affine (mEx c _) (mF _)] at b1
        have b2 : (K + N * M ^ 2) * gasEmission data m (heat c) d e (fun _ _ => 1) (fun _ _ => 1) ≤
            ENNReal.ofReal rate * K := by
          refine le_trans ?_ (hK c hc m hm e he)
          rw [mul_comm]
          gcongr
          exact gasEmission_le h hw hc hm hd he (fun _ _ _ _ => le_rfl) fun _ _ _ _ => le_rfl
        rw [mul_comm rate, ENNReal.ofReal_mul (Real.exp_pos _).le, mul_assoc,
          mul_left_comm (1 + 2 * M), mul_left_comm K, ← mul_add]
        refine mul_le_mul_right (b1.trans (add_le_add le_rfl ?_)) _
        rw [mul_comm K]
        exact b2
      -- a crossing
      have hcross : ahead c x d ≠ ⊤ →
          ∫⁻ us, gasCrossed w hit (fun c x d e => gasScore endless a b data w method hit n c x d e us)
            c x d e ^ 2 ∂uniforms ≤ (1 + 2 * M) * gasCrossed w hit E c x d e + K := by
        intro ht
        unfold gasCrossed
        cases hfc : faced c x d with
        | none => simp
        | some s =>
          cases hcl : cellAt w (beyond c x d) with
          | none => simp
          | some c' =>
            have hS' := hnext c hc hmn x d hx hd ht s c' hfc hcl
            have hc' := cellAt_mem hcl
            simp only [Option.elim_some]
            have mf : Measurable fun us =>
                gasScore endless a b data w method hit n c' (beyond c x d) d e us :=
              (measurable_gasScore h data w method hh n c').comp
                (measurable_const.prodMk (measurable_const.prodMk (measurable_const.prodMk measurable_id)))
            have hsq : ∀ us, (hit s d e +
                gasScore endless a b data w method hit n c' (beyond c x d) d e us) ^ 2 =
                hit s d e ^ 2 + (2 * hit s d e *
                  gasScore endless a b data w method hit n c' (beyond c x d) d e us +
                gasScore endless a b data w method hit n c' (beyond c x d) d e us ^ 2) := fun us => by ring
            simp only [hsq]
            rw [lintegral_add_left measurable_const, lintegral_add_left (mf.const_mul _),
              lintegral_const_mul _ mf, lintegral_const, measure_univ, mul_one]
            have c1 : hit s d e ^ 2 ≤ hit s d e := by
              rw [sq]
              exact (mul_le_mul_right (hone s d e) _).trans (mul_one _).le
            have c2 := hM' n c' hc' (beyond c x d) d hS' hd e he
            have c3 := ih hc' hS' hd he
            calc _ ≤ hit s d e + (2 * hit s d e * M +
                  ((1 + 2 * M) * E c' (beyond c x d) d e + K)) :=
                  add_le_add c1 (add_le_add (mul_le_mul_right c2 _) c3)
              _ = _ := by ring
      have mQ : Measurable fun s : ℝ => ENNReal.ofReal (rate * Real.exp (-(rate * s))) := by fun_prop
      have hint : (∫⁻ s in {s : ℝ | 0 < s ∧ (s : WithTop ℝ) < ahead c x d},
            ENNReal.ofReal (rate * Real.exp (-(rate * s))) *
              ∫⁻ us, afterGas endless a b data m (heat c) d e
                (gasScore endless a b data w method hit n c (along x d s))
                (beginning w (gasScore endless a b data w method hit n) (along x d s))
                (fun k => us (k + (drawnBefore method - 1))) ^ 2 ∂uniforms) ≤
          (1 + 2 * M) * (∫⁻ s in {s : ℝ | 0 < s ∧ (s : WithTop ℝ) < ahead c x d},
              ENNReal.ofReal (Real.exp (-(rate * s))) * Q s) +
          K * ∫⁻ s in {s : ℝ | 0 < s ∧ (s : WithTop ℝ) < ahead c x d},
            ENNReal.ofReal (rate * Real.exp (-(rate * s))) := by
        refine (setLIntegral_mono' (measurableSet_between _) hcoll).trans (le_of_eq ?_)
        rw [lintegral_add_right _ (mQ.const_mul K), lintegral_const_mul K mQ, lintegral_const_mul']
        exact ENNReal.add_ne_top.2 ⟨ENNReal.one_ne_top, ENNReal.mul_ne_top (by simp) hMtop⟩
      refine (add_le_add hint (d := if ahead c x d = ⊤ then 0 else
        ENNReal.ofReal (Real.exp (-(rate * (ahead c x d).untopD 0))) *
          ((1 + 2 * M) * gasCrossed w hit E c x d e + K)) ?_).trans (le_of_eq ?_)
      · split_ifs with ht
        · exact le_rfl
        · exact mul_le_mul_right (hcross ht) _
      · have hK1 := congrArg (K * ·) hone'
        simp only [mul_one] at hK1
        conv_rhs => rw [hK1]
        split_ifs
        · ring
        · ring

end Minimc
