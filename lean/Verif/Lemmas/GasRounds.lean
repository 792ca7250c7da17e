import Verif.Lemmas.GasMean
import Verif.Lemmas.WalkRounds
import Verif.Lemmas.ContinuousSafe

/-! # Chains of neutrons in gases: the mean over one more round -/

namespace Minimc

open Classical MeasureTheory Spec Set Props
open scoped ENNReal

variable {a b : Direction → Direction}

/-! ### Data -/

theorem sound_tabled {l : ContinuousMap} (hs : Sorted l) (h : SoundTable l) {e : ℝ} (he : 0 < e) :
    l.at' e = .ok (tabled l e) ∧ 0 ≤ tabled l e := by
  obtain ⟨v, hv, hv0⟩ := h e he
  have hne : l ≠ [] := by
    rintro rfl
    unfold ContinuousMap.at' at hv
    simp at hv
  have h1 := at_tabled hs hne e
  refine ⟨h1, ?_⟩
  rw [h1] at hv
  cases hv
  exact hv0

theorem meetingSpeed_eq {A t e : ℝ} (hA : 0 < A) (he : 0 < e) (ht : 0 ≤ t) :
    meetingSpeed A t e = speedOf neutronMass e * adjV A e t := by
  have hm := neutronMass_pos
  unfold meetingSpeed adjV
  split_ifs with h
  · rw [mul_one]
  · have ht' := lt_of_le_of_ne ht (Ne.symm h)
    rw [meanRelativeSpeed_eq (slowness_pos (mul_pos hA hm) ht') (speedOf_pos hm he),
      slowness_mul_speedOf hA he ht' hm]

theorem isValid_false_iff {ev : ContinuousEvaluation} {t : ℝ} (hev : 0 ≤ ev.temperature) (ht : 0 < t) :
    ev.isValid t = false ↔ 1.01 * ev.temperature ≤ t := by
  unfold ContinuousEvaluation.isValid temperatureTolerance
  split_ifs with h0
  · rw [decide_eq_false_iff_not, h0]
    constructor
    · intro _; linarith
    · intro _; linarith
  · have h1 : 0 < ev.temperature := lt_of_le_of_ne hev (Ne.symm h0)
    rw [decide_eq_false_iff_not, not_lt, le_div_iff₀ h1]
    constructor
    · intro _; linarith
    · intro _; linarith

/-- The cross section of the specification is that of the program. -/
theorem reactionXS_scatter {ev : ContinuousEvaluation} {tsl : Option ThermalScattering} {A t e : ℝ}
    (hA : 0 < A) (he : 0 < e) (ht : 0 < t) (hev : 0 ≤ ev.temperature) {p : Particle}
    (hp : p.type = .neutron) :
    reactionXS t e (.scatter ev tsl A) = scatterValue ev A e t (tabled ev.xs e) p := by
  have hv := speedOf_pos neutronMass_pos he
  have h1 := one_le_adjV hA he hev
  have hne : adjV A e ev.temperature ≠ 0 := by linarith
  have hi := isValid_false_iff hev ht
  have hr : reactionXS t e (.scatter ev tsl A) =
      if 1.01 * ev.temperature ≤ t ∧ (A ≤ 1 ∨ e < 500 * boltzmannMeV * t / A) then
        tabled ev.xs e * (meetingSpeed A t e / meetingSpeed A ev.temperature e)
      else tabled ev.xs e := rfl
  rw [hr, meetingSpeed_eq hA he ht.le, meetingSpeed_eq hA he hev]
  unfold scatterValue FreeGasApplies
  by_cases h : 1.01 * ev.temperature ≤ t ∧ (A ≤ 1 ∨ e < 500 * boltzmannMeV * t / A)
  · rw [if_pos h, if_pos ⟨hi.2 h.1, hp, h.2⟩]
    field_simp
  · rw [if_neg h, if_neg fun h' => h ⟨hi.1 h'.1, h'.2.2⟩]

theorem tabled_le_reactionXS {r : ContinuousReaction} (h : SoundReaction r) (hs : Sorted r.evaluation.xs)
    {t e : ℝ} (he : 0 < e) (ht : 0 < t) : tabled r.evaluation.xs e ≤ reactionXS t e r := by
  cases r with
  | capture ev => exact le_rfl
  | fission ev nubar => exact le_rfl
  | scatter ev tsl A =>
    obtain ⟨-, hA⟩ := h.scatter ev tsl A rfl
    have hev : 0 ≤ ev.temperature := h.temperature
    rw [reactionXS_scatter (p := ⟨[], [], ⟨0, 0, 0⟩, ⟨1, 0, 0⟩, .continuous e, none, 1, .neutron, .birth,
      none⟩) hA he ht hev rfl]
    exact table_le_scatterValue he hA ht.le h.temperature (sound_tabled hs h.table he).2

variable {data : Nuclide → Continuous} {w : World} {c : Cell} {m : Material} {x : Nuclide × ℝ} {e : ℝ}

theorem Spec.GasWorld.temperature (hw : GasWorld data w) (hc : c ∈ w.cells) (hm : c.material = some m) :
    0 < heat c ∧ c.temperature = .constant (heat c) := by
  obtain ⟨t, ht, h⟩ := hw.warm c hc (by simp [hm])
  have : heat c = t := by unfold heat; rw [h]; rfl
  rw [this]
  exact ⟨ht, h⟩

theorem Spec.GasWorld.nuclide (hw : GasWorld data w) (hc : c ∈ w.cells) (hm : c.material = some m)
    (hx : x ∈ m.afracs) : 0 < x.2 ∧ SoundContinuous (data x.1) := by
  obtain ⟨h1, d, h2, h3⟩ := hw.sound.data c hc m hm x hx
  rw [hw.supplied c hc m hm x hx] at h2
  cases h2
  exact ⟨h1, h3⟩

theorem Spec.GasWorld.reaction (hw : GasWorld data w) (hc : c ∈ w.cells) (hm : c.material = some m)
    (hx : x ∈ m.afracs) {r : ContinuousReaction} (hr : r ∈ (data x.1).reactions) (he : 0 < e) :
    SoundReaction r ∧ r.evaluation.xs.at' e = .ok (tabled r.evaluation.xs e) ∧
      0 ≤ tabled r.evaluation.xs e ∧ tabled r.evaluation.xs e ≤ reactionXS (heat c) e r ∧
      (∀ ev tsl A, r = .scatter ev tsl A → 0 < A) ∧
      ∀ ev nubar, r = .fission ev nubar → 0 ≤ yieldAt nubar e := by
  have h := (hw.nuclide hc hm hx).2.reactions r hr
  obtain ⟨hs, -, hf⟩ := hw.tables c hc m hm x hx r hr
  obtain ⟨h1, h2⟩ := sound_tabled hs h.table he
  refine ⟨h, h1, h2, tabled_le_reactionXS h hs he (hw.temperature hc hm).1,
    fun ev tsl A hr => (h.scatter ev tsl A hr).2, fun ev nubar hr => ?_⟩
  obtain ⟨l, rfl, hl⟩ := h.fission ev nubar hr
  exact (sound_tabled (hf ev l hr) hl he).2

theorem Spec.GasWorld.nuclideXS_ge (hw : GasWorld data w) (hc : c ∈ w.cells) (hm : c.material = some m)
    (hx : x ∈ m.afracs) (he : 0 < e) :
    0 ≤ nuclideXS (data x.1) (heat c) e ∧
      ∀ σ, (data x.1).total.xs.at' e = .ok σ → σ ≤ nuclideXS (data x.1) (heat c) e := by
  have hr := fun r hr => hw.reaction hc hm hx (r := r) hr he
  refine ⟨List.sum_nonneg fun y hy => ?_, fun σ hσ => ?_⟩
  · obtain ⟨r, h, rfl⟩ := List.mem_map.1 hy
    exact (hr r h).2.2.1.trans (hr r h).2.2.2.1
  · rw [(hw.nuclide hc hm hx).2.total e he (fun r => tabled r.evaluation.xs e)
      fun r h => (hr r h).2.1] at hσ
    cases hσ
    exact List.sum_le_sum fun r h => (hr r h).2.2.2.1

/-- Something collides at every energy. -/
theorem Spec.GasWorld.shares_pos (hw : GasWorld data w) (hc : c ∈ w.cells) (hm : c.material = some m)
    (he : 0 < e) : 0 < (m.afracs.map fun x => x.2 * nuclideXS (data x.1) (heat c) e).sum := by
  obtain ⟨x, hx, d, σ, hd, hσ, hσ0⟩ := hw.sound.reacts c hc m hm e he
  rw [hw.supplied c hc m hm x hx] at hd
  cases hd
  have h1 := (hw.nuclideXS_ge hc hm hx he).2 σ hσ
  have h2 := mul_pos (hw.nuclide hc hm hx).1 (hσ0.trans_le h1)
  refine h2.trans_le (List.single_le_sum (fun y hy => ?_) _ (List.mem_map.2 ⟨x, hx, rfl⟩))
  obtain ⟨z, hz, rfl⟩ := List.mem_map.1 hy
  exact mul_nonneg (hw.nuclide hc hm hz).1.le (hw.nuclideXS_ge hc hm hz he).1

theorem Spec.GasWorld.rate_pos (hw : GasWorld data w) (hc : c ∈ w.cells) (hm : c.material = some m)
    (he : 0 < e) : 0 < collisionRate data m (heat c) e :=
  mul_pos (hw.sound.density c hc m hm) (hw.shares_pos hc hm he)

/-! ### One more round -/

variable {method : Method} {hit : SurfaceObj → Direction → ℝ → ℝ≥0∞}

theorem gasTransported_some {E : Cell → Point → Direction → ℝ → ℝ≥0∞} {x : Point} {d : Direction}
    (hm : c.material = some m) :
    gasTransported data w hit E c x d e =
      (∫⁻ s in {s : ℝ | 0 < s ∧ (s : WithTop ℝ) < ahead c x d},
        ENNReal.ofReal (Real.exp (-(collisionRate data m (heat c) e * s))) *
          gasEmission data m (heat c) d e (E c (along x d s)) fun d' e' =>
            (cellAt w (along x d s)).elim 0 fun c' => E c' (along x d s) d' e') +
      if ahead c x d = ⊤ then 0 else
        ENNReal.ofReal (Real.exp (-(collisionRate data m (heat c) e * (ahead c x d).untopD 0))) *
          gasCrossed w hit E c x d e := by
  rw [gasTransported, hm]
  rfl

theorem lintegral_gasCrossed {E : (ℕ → ℝ) → Cell → Point → Direction → ℝ → ℝ≥0∞} {x : Point}
    {d : Direction} :
    ∫⁻ us, gasCrossed w hit (E us) c x d e ∂uniforms =
      gasCrossed w hit (fun c x d e => ∫⁻ us, E us c x d e ∂uniforms) c x d e := by
  unfold gasCrossed
  cases faced c x d with
  | none => simp
  | some s =>
    cases cellAt w (beyond c x d) with
    | none => simp
    | some c' =>
      simp only [Option.elim_some]
      rw [lintegral_add_left measurable_const, lintegral_const, measure_univ, mul_one]

theorem measurable_gasCrossed {E : (ℕ → ℝ) → Cell → Point → Direction → ℝ → ℝ≥0∞} {x : Point}
    {d : Direction} (hE : ∀ c x, Measurable fun us => E us c x d e) :
    Measurable fun us => gasCrossed w hit (E us) c x d e := by
  unfold gasCrossed
  cases faced c x d with
  | none => exact measurable_const
  | some s =>
    cases cellAt w (beyond c x d) with
    | none => exact measurable_const
    | some c' => exact measurable_const.add (hE c' _)

/-- What a neutron scores that begins at a place. -/
noncomputable def beginning (w : World) (E : Cell → Point → Direction → ℝ → (ℕ → ℝ) → ℝ≥0∞) (y : Point)
    (d : Direction) (e : ℝ) (us : ℕ → ℝ) : ℝ≥0∞ :=
  (cellAt w y).elim 0 fun c' => E c' y d e us

theorem lintegral_beginning {E : Cell → Point → Direction → ℝ → (ℕ → ℝ) → ℝ≥0∞} {y : Point}
    {d : Direction} :
    ∫⁻ us, beginning w E y d e us ∂uniforms =
      (cellAt w y).elim 0 fun c' => ∫⁻ us, E c' y d e us ∂uniforms := by
  unfold beginning
  cases cellAt w y with
  | none => simp
  | some c' => rfl

/-- The mean after a collision on the way. -/
theorem lintegral_gasCollision (h : Frames a b) (hw : GasWorld data w)
    {next : Cell → Point → Direction → ℝ → (ℕ → ℝ) → ℝ≥0∞}
    (hn : ∀ c, Measurable fun q : Point × Direction × ℝ × (ℕ → ℝ) => next c q.1 q.2.1 q.2.2.1 q.2.2.2)
    (hc : c ∈ w.cells)
    (hm : c.material = some m) (y : Point) {d : Direction} (hd : UnitVec d) (he : 0 < e) :
    ENNReal.ofReal (collisionRate data m (heat c) e) * ∫⁻ us, afterGas endless a b data m (heat c) d e
        (next c y)
        (beginning w next y)
        (fun k => us (k + (drawnBefore method - 1))) ∂uniforms =
      gasEmission data m (heat c) d e (fun d e => ∫⁻ us, next c y d e us ∂uniforms) fun d' e' =>
        (cellAt w y).elim 0 fun c' => ∫⁻ us, next c' y d' e' us ∂uniforms := by
  have hS := hw.shares_pos hc hm he
  have hN := hw.sound.density c hc m hm
  have ms : ∀ c', Measurable fun q : Direction × ℝ × (ℕ → ℝ) =>
      next c' y q.1 q.2.1 q.2.2 := fun c' =>
    (hn c').comp (measurable_const.prodMk measurable_id)
  have mb : Measurable fun q : Direction × ℝ × (ℕ → ℝ) =>
      beginning w next y q.1 q.2.1 q.2.2 := by
    unfold beginning
    cases cellAt w y with
    | none => exact measurable_const
    | some c' => exact ms c'
  have mcoll : Measurable fun us => afterGas endless a b data m (heat c) d e
      (next c y)
      (beginning w next y) us :=
    measurable_afterGas (α := ℕ → ℝ) h data m (heat c)
      (next := fun _ => next c y)
      (start := fun _ => beginning w next y)
      ((ms c).comp measurable_snd) (mb.comp measurable_snd) measurable_const measurable_const measurable_id
  have eB : ∫⁻ us, afterGas endless a b data m (heat c) d e
        (next c y)
        (beginning w next y)
        (fun k => us (k + (drawnBefore method - 1))) ∂uniforms =
      ∫⁻ us, afterGas endless a b data m (heat c) d e
        (next c y)
        (beginning w next y) us ∂uniforms := by
    cases method
    · rfl
    · exact lintegral_skip mcoll
  have hr := fun x (hx : x ∈ m.afracs) r hr => hw.reaction hc hm hx (r := r) hr he
  rw [eB, lintegral_afterGas h (hw.temperature hc hm).1 he hd (ms c) mb
    (fun x hx => (hw.nuclide hc hm hx).1.le)
    (fun x hx r h => (hr x hx r h).2.2.1.trans (hr x hx r h).2.2.2.1)
    (fun x hx r h => (hr x hx r h).2.2.2.2.1) (fun x hx r h => (hr x hx r h).2.2.2.2.2)]
  unfold gasEmission
  simp only [lintegral_beginning]
  rw [← List.sum_map_mul_left, ← List.sum_map_mul_left]
  congr 1
  refine List.map_congr_left fun x hx => ?_
  have hx0 := (hw.nuclide hc hm hx).1
  rw [← mul_assoc, ← mul_assoc, ← ENNReal.ofReal_mul (hw.rate_pos hc hm he).le, ← ENNReal.ofReal_mul hN.le]
  congr 2
  unfold collisionRate
  field_simp

/-- One round is one application of the right hand side of the equation. -/
theorem lintegral_gasRound (h : Frames a b) (hw : GasWorld data w) (method : Method)
    {next : Cell → Point → Direction → ℝ → (ℕ → ℝ) → ℝ≥0∞}
    (hn : ∀ c, Measurable fun q : Point × Direction × ℝ × (ℕ → ℝ) => next c q.1 q.2.1 q.2.2.1 q.2.2.2)
    (hc : c ∈ w.cells) (x : Point) {d : Direction} (hd : UnitVec d) (he : 0 < e) :
    ∫⁻ us, gasRound endless a b data w method hit next c x d e us ∂uniforms =
      gasTransported data w hit (fun c x d e => ∫⁻ us, next c x d e us ∂uniforms) c x d e := by
  cases hm : c.material with
  | none =>
    unfold gasTransported
    simp [gasRound_none hm, hm]
  | some m =>
    have hM := hw.rate_pos hc hm he
    set M := collisionRate data m (heat c) e with hMd
    have msu : ∀ c x, Measurable fun us => next c x d e us :=
      fun c x => (hn c).comp
        (measurable_const.prodMk (measurable_const.prodMk (measurable_const.prodMk measurable_id)))
    have mA := measurable_gasCrossed (w := w) (hit := hit) (c := c) (x := x) (d := d) (e := e)
      (E := fun us c x d e => next c x d e us) msu
    have hal : Measurable fun q : (ℝ × (ℕ → ℝ)) × Direction × ℝ × (ℕ → ℝ) => along x d q.1.1 :=
      Measurable.along measurable_const measurable_const (by fun_prop)
    have mB : Measurable fun q : ℝ × (ℕ → ℝ) => afterGas endless a b data m (heat c) d e
        (next c (along x d q.1))
        (beginning w next (along x d q.1))
        fun k => q.2 (k + (drawnBefore method - 1)) := by
      refine measurable_afterGas h data m (heat c)
        (next := fun q : ℝ × (ℕ → ℝ) => next c (along x d q.1))
        (start := fun q : ℝ × (ℕ → ℝ) => beginning w next
          (along x d q.1)) ?_ ?_ measurable_const measurable_const (measurable_shift measurable_snd _)
      · exact (hn c).comp (hal.prodMk measurable_snd)
      · exact measurable_cellAt w hal fun c' _ =>
          (hn c').comp (hal.prodMk measurable_snd)
    have hl : Measurable fun q : ℝ × (ℕ → ℝ) => -Real.log (1 - q.1) / M := by fun_prop
    have hF := @Measurable.ite _ _ _ _ _ _ _ (fun _ => propDecidable _)
      (measurableSet_reaches' method (t := fun _ => ahead c x d) measurable_const hl)
      (mA.comp measurable_snd) (mB.comp (hl.prodMk measurable_snd))
    set K : ℝ → (ℕ → ℝ) → ℝ≥0∞ := fun u us =>
      if FliesTo method (ahead c x d) (-Real.log (1 - u) / M) then
        gasCrossed w hit (fun c x d e => next c x d e us) c x d e
      else afterGas endless a b data m (heat c) d e
        (next c (along x d (-Real.log (1 - u) / M)))
        (beginning w next (along x d (-Real.log (1 - u) / M)))
        fun k => us (k + (drawnBefore method - 1)) with hK
    have e0 : ∀ us : ℕ → ℝ, gasRound endless a b data w method hit next c x d e us =
        K (us 0) fun k => us (k + 1) := by
      intro us
      rw [gasRound_some hm]
      simp only [endless_rest, endless_number]
      cases method <;> rfl
    have e1 : ∀ u : ℝ, ∫⁻ us, K u us ∂uniforms =
        if FliesTo method (ahead c x d) (-Real.log (1 - u) / M) then
          gasCrossed w hit (fun c x d e => ∫⁻ us, next c x d e us ∂uniforms) c x d e
        else (fun y => ∫⁻ us, afterGas endless a b data m (heat c) d e
            (next c (along x d y))
            (beginning w next (along x d y))
            (fun k => us (k + (drawnBefore method - 1))) ∂uniforms) (-Real.log (1 - u) / M) := by
      intro u
      simp only [hK]
      split_ifs
      · exact lintegral_gasCrossed
      · rfl
    rw [gasTransported_some hm, ← hMd]
    refine (lintegral_congr e0).trans ((lintegral_first (F := K) hF).trans ((lintegral_congr e1).trans ?_))
    refine (lintegral_round c method hM (t := ahead c x d) (fun r hr => ahead_pos hr)
      (gasCrossed w hit (fun c x d e => ∫⁻ us, next c x d e us ∂uniforms) c x d e)
      fun y => ∫⁻ us, afterGas endless a b data m (heat c) d e
            (next c (along x d y))
            (beginning w next (along x d y))
            (fun k => us (k + (drawnBefore method - 1))) ∂uniforms).trans ?_
    congr 1
    refine lintegral_congr fun s => ?_
    rw [mul_comm M, ENNReal.ofReal_mul (Real.exp_pos _).le, mul_assoc, hMd,
      lintegral_gasCollision h hw hn hc hm _ hd he]

/-- One more round is one application of the right hand side of the equation. -/
theorem gasMean_succ (h : Frames a b) (hw : GasWorld data w) (method : Method)
    (hh : ∀ s, Measurable fun q : Direction × ℝ => hit s q.1 q.2) (n : ℕ) (hc : c ∈ w.cells)
    (x : Point) {d : Direction} (hd : UnitVec d) (he : 0 < e) :
    gasMean a b data w method hit (n + 1) c x d e =
      gasTransported data w hit (gasMean a b data w method hit n) c x d e := by
  unfold gasMean
  simp only [gasScore_round]
  exact lintegral_gasRound h hw method (measurable_gasScore h data w method hh n) hc x hd he

end Minimc
