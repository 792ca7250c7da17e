import Verif.Lemmas.GasSquare
import Verif.Lemmas.GasBins
import Verif.Lemmas.Subcritical

/-! # Gases in which neutrons die out -/

namespace Minimc

open Classical MeasureTheory Spec Set
open scoped ENNReal

section Rounds

variable {σ : Type} {S : Supply σ} {a b : Direction → Direction} {data : Nuclide → Continuous} {w : World}
  {method : Method} {hit : SurfaceObj → Direction → ℝ → ℝ≥0∞}

/-! ### A round is linear -/

theorem gasScattered_linear {A β : ℝ} {d : Direction} {speed : ℝ}
    (next next' : Direction → ℝ → σ → ℝ≥0∞) (B : ℝ≥0∞) (n : ℕ) (s : σ) :
    gasScattered S a b A β d speed (fun d e s => next d e s + B * next' d e s) n s =
      gasScattered S a b A β d speed next n s + B * gasScattered S a b A β d speed next' n s := by
  induction n generalizing s with
  | zero => simp [gasScattered]
  | succ n ih =>
    rw [gasScattered, gasScattered, gasScattered]
    generalize proposal (β * speed) (S.numbers s) = q
    obtain ⟨x, μ, k⟩ := q
    simp only
    split_ifs
    · simp
    · rfl
    · exact ih _

theorem gasBirths_linear (start start' : Direction → σ → ℝ≥0∞) (B : ℝ≥0∞) (k : ℕ) (s : σ) :
    gasBirths S (fun d s => start d s + B * start' d s) k s =
      gasBirths S start k s + B * gasBirths S start' k s := by
  induction k generalizing s with
  | zero => simp [gasBirths]
  | succ k ih =>
    unfold gasBirths
    rw [ih]
    ring

theorem afterReaction_linear {t : ℝ} {d : Direction} {e : ℝ} (next next' start start' : Direction → ℝ → σ → ℝ≥0∞)
    (B : ℝ≥0∞) (s : σ) (r : ContinuousReaction) :
    afterReaction S a b t d e (fun d e s => next d e s + B * next' d e s)
        (fun d e s => start d e s + B * start' d e s) s r =
      afterReaction S a b t d e next start s r + B * afterReaction S a b t d e next' start' s r := by
  cases r with
  | capture ev => simp [afterReaction]
  | scatter ev tsl A =>
    simp only [afterReaction, gasScattered_linear]
    rw [ENNReal.mul_iSup, ENNReal.iSup_add_iSup_of_monotone (gasScattered_monotone S _ _ d _ next s)]
    exact fun i j hij => mul_le_mul_right (gasScattered_monotone S _ _ d _ next' s hij) B
  | fission ev nubar =>
    simp only [afterReaction]
    exact gasBirths_linear _ _ _ _ _

theorem afterGas_linear {m : Material} {t : ℝ} {d : Direction} {e : ℝ}
    (next next' start start' : Direction → ℝ → σ → ℝ≥0∞) (B : ℝ≥0∞) (s : σ) :
    afterGas S a b data m t d e (fun d e s => next d e s + B * next' d e s)
        (fun d e s => start d e s + B * start' d e s) s =
      afterGas S a b data m t d e next start s + B * afterGas S a b data m t d e next' start' s := by
  unfold afterGas
  rw [← byWeight_linear]
  congr 1
  funext i
  cases m.afracs[i]? with
  | none => simp
  | some x =>
    simp only [Option.elim_some]
    rw [← byWeight_linear]
    congr 1
    funext j
    cases (data x.1).reactions[j]? with
    | none => simp
    | some r =>
      simp only [Option.elim_some]
      exact afterReaction_linear next next' start start' B _ r

theorem gasRound_linear (next next' : Cell → Point → Direction → ℝ → σ → ℝ≥0∞) (B : ℝ≥0∞) (c : Cell)
    (x : Point) (d : Direction) (e : ℝ) (s : σ) :
    gasRound S a b data w method hit (fun c x d e s => next c x d e s + B * next' c x d e s) c x d e s =
      gasRound S a b data w method hit next c x d e s +
        B * gasRound S a b data w method (fun _ _ _ => 0) next' c x d e s := by
  cases hm : c.material with
  | none => simp only [gasRound_none hm, mul_zero, add_zero]
  | some m =>
    rw [gasRound_some hm, gasRound_some hm, gasRound_some hm]
    split_ifs
    · unfold gasCrossed
      cases faced c x d with
      | none => simp
      | some f =>
        cases cellAt w (beyond c x d) with
        | none => simp
        | some c' =>
          simp only [Option.elim_some, zero_add]
          ring
    · rw [← afterGas_linear]
      congr 1
      funext d' e' s'
      cases cellAt w (along x d (-Real.log (1 - S.number s) / collisionRate data m (heat c) e)) with
      | none => simp
      | some c' => rfl

theorem gasRound_mono {next next' : Cell → Point → Direction → ℝ → σ → ℝ≥0∞}
    (h : ∀ c x d e s, next c x d e s ≤ next' c x d e s) (c : Cell) (x : Point) (d : Direction) (e : ℝ)
    (s : σ) : gasRound S a b data w method hit next c x d e s ≤
      gasRound S a b data w method hit next' c x d e s := by
  cases hm : c.material with
  | none => simp only [gasRound_none hm, le_refl]
  | some m =>
    rw [gasRound_some hm, gasRound_some hm]
    split_ifs
    · exact gasCrossed_le fun c _ x => h c x d e _
    · refine afterGas_le (fun d e s => h c _ d e s) (fun d' e' s' => ?_) _
      cases cellAt w (along x d (-Real.log (1 - S.number s) / collisionRate data m (heat c) e)) with
      | none => exact le_rfl
      | some c' => exact h c' _ d' e' s'

/-- Twice nothing is nothing: a round that scores nothing. -/
theorem gasScattered_nothing {A β : ℝ} {d : Direction} {speed : ℝ} (n : ℕ) (s : σ) :
    gasScattered S a b A β d speed (fun _ _ _ => 0) n s = 0 := by
  induction n generalizing s with
  | zero => rfl
  | succ n ih =>
    rw [gasScattered]
    generalize proposal (β * speed) (S.numbers s) = q
    obtain ⟨x, μ, k⟩ := q
    simp only [ih, ite_self]

theorem gasBirths_nothing (k : ℕ) (s : σ) : gasBirths S (fun _ _ => 0) k s = 0 := by
  induction k generalizing s with
  | zero => rfl
  | succ k ih => simp [gasBirths, ih]

theorem afterGas_nothing {m : Material} {t : ℝ} {d : Direction} {e : ℝ} (s : σ) :
    afterGas S a b data m t d e (fun _ _ _ => 0) (fun _ _ _ => 0) s = 0 := by
  have hr : ∀ s r, afterReaction S a b t d e (fun _ _ _ => 0) (fun _ _ _ => 0) s r = 0 := by
    intro s r
    cases r with
    | capture ev => rfl
    | scatter ev tsl A => simp [afterReaction, gasScattered_nothing]
    | fission ev nubar => simp [afterReaction, gasBirths_nothing]
  have h0 : ∀ (ws : List ℝ) (u : ℝ), byWeight ws u (fun _ => 0) = 0 := by
    intro ws u
    simp [byWeight]
  unfold afterGas
  refine (congrArg _ (funext fun i => ?_)).trans (h0 _ _)
  cases m.afracs[i]? with
  | none => rfl
  | some x =>
    simp only [Option.elim_some]
    refine (congrArg _ (funext fun j => ?_)).trans (h0 _ _)
    cases (data x.1).reactions[j]? with
    | none => rfl
    | some r => exact hr _ r

theorem gasRound_nothing (c : Cell) (x : Point) (d : Direction) (e : ℝ) (s : σ) :
    gasRound S a b data w method (fun _ _ _ => 0) (fun _ _ _ _ _ => 0) c x d e s = 0 := by
  cases hm : c.material with
  | none => exact gasRound_none hm s
  | some m =>
    rw [gasRound_some hm]
    split_ifs
    · unfold gasCrossed
      cases faced c x d with
      | none => rfl
      | some f => cases cellAt w (beyond c x d) <;> simp
    · have hs : (fun (_ : Direction) (_ : ℝ) (_ : σ) => (cellAt w (along x d
          (-Real.log (1 - S.number s) / collisionRate data m (heat c) e))).elim (0 : ℝ≥0∞) fun _ => 0) =
          fun _ _ _ => 0 := by
        funext _ _ _
        cases cellAt w (along x d (-Real.log (1 - S.number s) / collisionRate data m (heat c) e)) <;> rfl
      rw [hs]
      exact afterGas_nothing _

/-! ### Flights and neutrons -/

theorem gasFlights_succ (n : ℕ) (c : Cell) (x : Point) (d : Direction) (e : ℝ) (s : σ) :
    gasFlights S a b data w method (n + 1) c x d e s =
      gasFlights S a b data w method n c x d e s + gasFlying S a b data w method n c x d e s := by
  induction n generalizing c x d e s with
  | zero =>
    change (if c.material = none then 0 else 1) +
      gasRound S a b data w method (fun _ _ _ => 0) (fun _ _ _ _ _ => 0) c x d e s =
        0 + if c.material = none then 0 else 1
    rw [gasRound_nothing, add_zero, zero_add]
  | succ n ih =>
    have : gasFlights S a b data w method (n + 1) = fun c x d e s =>
        gasFlights S a b data w method n c x d e s + 1 * gasFlying S a b data w method n c x d e s := by
      funext c x d e s
      rw [ih, one_mul]
    have h : gasRound S a b data w method (fun _ _ _ => 0) (gasFlights S a b data w method (n + 1)) c x d e s =
        gasRound S a b data w method (fun _ _ _ => 0) (gasFlights S a b data w method n) c x d e s +
          gasFlying S a b data w method (n + 1) c x d e s := by
      rw [this, gasRound_linear, one_mul, gasFlying]
    rw [gasFlights, h, ← add_assoc]
    congr 1

theorem gasFlights_monotone (c : Cell) (x : Point) (d : Direction) (e : ℝ) (s : σ) :
    Monotone fun n => gasFlights S a b data w method n c x d e s :=
  monotone_nat_of_le_succ fun n => by
    rw [gasFlights_succ]
    exact le_self_add

theorem gasFlights_eq (n : ℕ) (c : Cell) (x : Point) (d : Direction) (e : ℝ) (s : σ) :
    gasFlights S a b data w method n c x d e s =
      ∑ i ∈ Finset.range n, gasFlying S a b data w method i c x d e s := by
  induction n with
  | zero => rfl
  | succ n ih => rw [gasFlights_succ, ih, Finset.sum_range_succ]

theorem gasFlights_none (n : ℕ) {c : Cell} (hm : c.material = none) (x : Point) (d : Direction) (e : ℝ)
    (s : σ) : gasFlights S a b data w method n c x d e s = 0 := by
  cases n with
  | zero => rfl
  | succ n => rw [gasFlights, if_pos hm, gasRound_none hm, add_zero]

theorem gasFlights_some (n : ℕ) {c : Cell} {m : Material} (hm : c.material = some m) (x : Point)
    (d : Direction) (e : ℝ) (s : σ) :
    gasFlights S a b data w method (n + 1) c x d e s = 1 +
      gasRound S a b data w method (fun _ _ _ => 0) (gasFlights S a b data w method n) c x d e s := by
  rw [gasFlights, if_neg (by rw [hm]; exact Option.some_ne_none m)]

/-- A crossing costs a flight. -/
theorem gasScore_le_flights {H : ℝ≥0∞} (hH : ∀ s d e, hit s d e ≤ H) (n : ℕ) (c : Cell) (x : Point)
    (d : Direction) (e : ℝ) (s : σ) : gasScore S a b data w method hit n c x d e s ≤
      H * gasFlights S a b data w method n c x d e s := by
  induction n generalizing c x d e s with
  | zero => exact zero_le
  | succ n ih =>
    rw [gasScore_round, gasFlights]
    refine (gasRound_mono (next' := fun c x d e s =>
      0 + H * gasFlights S a b data w method n c x d e s) (fun c x d e s => by
        rw [zero_add]; exact ih c x d e s) c x d e s).trans ?_
    rw [gasRound_linear (next := fun _ _ _ _ _ => 0), mul_add]
    refine add_le_add ?_ le_rfl
    cases hm : c.material with
    | none => simp only [gasRound_none hm, zero_le]
    | some m =>
      have h0 := gasRound_nothing (S := S) (a := a) (b := b) (data := data) (w := w) (method := method)
        c x d e s
      rw [gasRound_some hm] at h0 ⊢
      rw [if_neg (Option.some_ne_none m), mul_one]
      split_ifs at h0 ⊢
      · unfold gasCrossed
        cases faced c x d with
        | none => simp
        | some f =>
          cases cellAt w (beyond c x d) with
          | none => simp
          | some c' => simpa using hH f d e
      · rw [h0]
        exact zero_le

end Rounds

variable {a b : Direction → Direction} {data : Nuclide → Continuous} {w : World} {method : Method}
  {hit : SurfaceObj → Direction → ℝ → ℝ≥0∞}

/-! ### One flight -/

/-- What is expected of the collisions, if at most `α` is expected of each neutron. -/
theorem gasEmission_le_const (h : Frames a b) (hw : GasWorld data w) {c : Cell} (hc : c ∈ w.cells)
    {m : Material} (hm : c.material = some m) {d : Direction} (hd : UnitVec d) {e : ℝ} (he : 0 < e)
    {E F : Direction → ℝ → ℝ≥0∞} {α : ℝ≥0∞} (hE : ∀ d e, UnitVec d → 0 < e → E d e ≤ α)
    (hF : ∀ d e, UnitVec d → 0 < e → F d e ≤ α) :
    gasEmission data m (heat c) d e E F ≤ α * ENNReal.ofReal (neutronRate data m (heat c) e) := by
  refine (gasEmission_mono (E' := fun _ _ => 0 * 0 + α) (F' := fun _ _ => 0 * 0 + α) he
    (fun d e hd he => by simpa using hE d e hd he) (fun d e hd he => by simpa using hF d e hd he)).trans ?_
  rw [gasEmission_affine (E := fun _ _ => 0) (F := fun _ _ => 0) measurable_const measurable_const,
    zero_mul, zero_add]
  exact mul_le_mul_right (gasEmission_le h hw hc hm hd he (fun _ _ _ _ => le_rfl) fun _ _ _ _ => le_rfl) _

/-- If collisions leave at most `k` neutrons on average, a flight takes the mean to at most `k` times the
largest value or to the value beyond the surface. -/
theorem gas_flight_le (h : Frames a b) (hw : GasWorld data w) {k : ℝ} (hk0 : 0 ≤ k)
    (hk : GasAtMost k data w) {E : Cell → Point → Direction → ℝ → ℝ≥0∞} {α β : ℝ≥0∞}
    (ha : ∀ c ∈ w.cells, ∀ x d e, UnitVec d → 0 < e → E c x d e ≤ α) {c : Cell} (hc : c ∈ w.cells)
    {x : Point} {d : Direction} (hd : UnitVec d) {e : ℝ} (he : 0 < e)
    (hb : ahead c x d ≠ ⊤ → gasCrossed w hit E c x d e ≤ β) :
    gasTransported data w hit E c x d e ≤ max (ENNReal.ofReal k * α) β := by
  cases hm : c.material with
  | none => simp [gasTransported, hm]
  | some m =>
    have hpos := hw.rate_pos hc hm he
    rw [gasTransported_some hm]
    have hone := lintegral_round c .surfaceTracking hpos (t := ahead c x d) (fun _ h => ahead_pos h) 1 fun _ => 1
    have hl : ∫⁻ u, (if FliesTo .surfaceTracking (ahead c x d)
        (-Real.log (1 - u) / collisionRate data m (heat c) e) then (1 : ℝ≥0∞) else 1) ∂uniform = 1 := by
      simp
    rw [hl] at hone
    simp only [mul_one] at hone
    rw [← mul_one (max _ _), hone, mul_add]
    refine add_le_add ?_ ?_
    · have hmeas' : Measurable fun s : ℝ => ENNReal.ofReal (collisionRate data m (heat c) e *
          Real.exp (-(collisionRate data m (heat c) e * s))) := by
        fun_prop
      rw [← lintegral_const_mul _ hmeas']
      refine lintegral_mono fun s => ?_
      dsimp only
      rw [ENNReal.ofReal_mul hpos.le]
      have hem : gasEmission data m (heat c) d e (E c (along x d s)) (fun d' e' =>
          (cellAt w (along x d s)).elim 0 fun c' => E c' (along x d s) d' e') ≤
          α * (ENNReal.ofReal k * ENNReal.ofReal (collisionRate data m (heat c) e)) := by
        refine (gasEmission_le_const h hw hc hm hd he (fun d' e' hd' he' => ha c hc _ d' e' hd' he')
          fun d' e' hd' he' => ?_).trans ?_
        · cases hcl : cellAt w (along x d s) with
          | none => exact zero_le
          | some c' => exact ha c' (cellAt_mem hcl) _ d' e' hd' he'
        · rw [← ENNReal.ofReal_mul hk0]
          exact mul_le_mul_right (ENNReal.ofReal_le_ofReal (hk c hc m hm e he)) _
      calc _ ≤ ENNReal.ofReal (Real.exp (-(collisionRate data m (heat c) e * s))) *
            (α * (ENNReal.ofReal k * ENNReal.ofReal (collisionRate data m (heat c) e))) :=
            mul_le_mul_right hem _
        _ = ENNReal.ofReal k * α * (ENNReal.ofReal (collisionRate data m (heat c) e) *
            ENNReal.ofReal (Real.exp (-(collisionRate data m (heat c) e * s)))) := by ring
        _ ≤ _ := mul_le_mul_left (le_max_left _ _) _
    · split_ifs with ht
      · simp
      · rw [mul_comm]
        exact mul_le_mul_left ((hb ht).trans (le_max_right _ _)) _

/-! ### Means -/

theorem measurable_gasFlights (h : Frames a b) (n : ℕ) (c : Cell) :
    Measurable fun q : Point × Direction × ℝ × (ℕ → ℝ) =>
      gasFlights endless a b data w method n c q.1 q.2.1 q.2.2.1 q.2.2.2 := by
  induction n generalizing c with
  | zero => exact measurable_const
  | succ n ih =>
    exact measurable_const.add (measurable_gasRound h data w method (fun _ => measurable_const) ih c)

theorem measurable_gasFlying (h : Frames a b) (n : ℕ) (c : Cell) :
    Measurable fun q : Point × Direction × ℝ × (ℕ → ℝ) =>
      gasFlying endless a b data w method n c q.1 q.2.1 q.2.2.1 q.2.2.2 := by
  induction n generalizing c with
  | zero => exact measurable_const
  | succ n ih => exact measurable_gasRound h data w method (fun _ => measurable_const) ih c

theorem measurable_gasFlights_us (h : Frames a b) (n : ℕ) (c : Cell) (x : Point) (d : Direction) (e : ℝ) :
    Measurable fun us => gasFlights endless a b data w method n c x d e us :=
  (measurable_gasFlights h n c).comp
    (measurable_const.prodMk (measurable_const.prodMk (measurable_const.prodMk measurable_id)))

theorem measurable_gasFlying_us (h : Frames a b) (n : ℕ) (c : Cell) (x : Point) (d : Direction) (e : ℝ) :
    Measurable fun us => gasFlying endless a b data w method n c x d e us :=
  (measurable_gasFlying h n c).comp
    (measurable_const.prodMk (measurable_const.prodMk (measurable_const.prodMk measurable_id)))

theorem lintegral_gasFlights_succ (h : Frames a b) (hw : GasWorld data w) (method : Method) (n : ℕ)
    {c : Cell} (hc : c ∈ w.cells) (x : Point) {d : Direction} (hd : UnitVec d) {e : ℝ} (he : 0 < e) :
    ∫⁻ us, gasFlights endless a b data w method (n + 1) c x d e us ∂uniforms =
      (if c.material = none then 0 else 1) +
        gasTransported data w (fun _ _ _ => 0)
          (fun c x d e => ∫⁻ us, gasFlights endless a b data w method n c x d e us ∂uniforms) c x d e := by
  simp only [gasFlights]
  rw [lintegral_add_left measurable_const, lintegral_const, measure_univ, mul_one,
    lintegral_gasRound h hw method (measurable_gasFlights h n) hc x hd he]

/-- The mean number of flights is at most the number of crossings ahead, and a constant. -/
theorem lintegral_gasFlights_le (h : Frames a b) (hw : GasWorld data w) {k : ℝ} (hk0 : 0 ≤ k) (hk1 : k < 1)
    (hk : GasAtMost k data w) (method : Method) (n : ℕ) {c : Cell} (hc : c ∈ w.cells) (x : Point)
    {d : Direction} (hd : UnitVec d) {e : ℝ} (he : 0 < e) :
    ∫⁻ us, gasFlights endless a b data w method n c x d e us ∂uniforms ≤
      (crossingsAhead w x d : ℝ≥0∞) + 1 + ENNReal.ofReal (k * (crossable w + 1) / (1 - k)) := by
  induction n generalizing c x d e with
  | zero => simp [gasFlights]
  | succ n ih =>
    rw [lintegral_gasFlights_succ h hw method n hc x hd he]
    set C := ENNReal.ofReal (k * (crossable w + 1) / (1 - k)) with hC
    have hsub : 0 < 1 - k := by linarith
    have hkC : ENNReal.ofReal k * ((crossable w : ℝ≥0∞) + 1 + C) ≤ C := by
      rw [hC, bound_eq hk0 hk1, ← ENNReal.ofReal_mul hk0, mul_div_assoc]
    have hflight := gas_flight_le (hit := fun _ _ _ => 0) h hw hk0 hk
      (E := fun c x d e => ∫⁻ us, gasFlights endless a b data w method n c x d e us ∂uniforms)
      (α := (crossable w : ℝ≥0∞) + 1 + C) (β := (crossingsAhead w x d : ℝ≥0∞) + C)
      (fun c hc x d e hd he => (ih hc x hd he).trans (by
        gcongr
        exact crossingsAhead_le w x d))
      hc hd he (x := x) fun ht => by
        unfold gasCrossed
        cases faced c x d with
        | none => simp
        | some f =>
          cases hcl : cellAt w (beyond c x d) with
          | none => simp
          | some c' =>
            simp only [Option.elim_some, zero_add]
            refine (ih (cellAt_mem hcl) _ hd he).trans ?_
            gcongr
            exact_mod_cast crossingsAhead_beyond hc hd ht
    calc _ ≤ 1 + max (ENNReal.ofReal k * ((crossable w : ℝ≥0∞) + 1 + C))
          ((crossingsAhead w x d : ℝ≥0∞) + C) := by
          refine add_le_add ?_ hflight
          split_ifs <;> simp
      _ ≤ 1 + ((crossingsAhead w x d : ℝ≥0∞) + C) := by
          gcongr
          exact max_le (hkC.trans le_add_self) le_rfl
      _ = _ := by ring

theorem meanGasFlights_eq (h : Frames a b) (c : Cell) (x : Point) (d : Direction) (e : ℝ) :
    meanGasFlights a b data w method c x d e =
      ⨆ n, ∫⁻ us, gasFlights endless a b data w method n c x d e us ∂uniforms := by
  unfold meanGasFlights
  refine lintegral_iSup (fun n => measurable_gasFlights_us h n c x d e) ?_
  exact fun a b h us => gasFlights_monotone c x d e us h

end Minimc
