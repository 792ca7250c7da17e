import Verif.Lemmas.GasFlightsFollow
import Verif.Props.Drizzle
import Verif.Props.Plume
import Verif.Props.Subcritical

/-! # Properties: gases in which neutrons die out (C105) -/

namespace Minimc.Props

open Classical Spec MeasureTheory ProbabilityTheory Filter Topology
open scoped ENNReal

/-! ### Histories of the program -/

/-- **C105** The states of a history are the flights of the game that is played with the generators of the
source particle and of its descendants. -/
theorem C105_history : ∃ a b : Direction → Direction, Frames a b ∧
    ∀ {data : Nuclide → Continuous} {P : Problem}, GasWorld data P.world →
      EnergySource P.world P.source → Configured P.source.direction →
      ∀ {fuel h : ℕ} {states : List Particle}, P.history fuel h = .ok states →
        ∃ q c e, P.source.sample (P.seed + h) = .ok q ∧ FirstCell P.world P.source.position c ∧
          P.source.energy = .continuous e ∧
          (states.length : ℝ≥0∞) = ⨆ n, gasFlights generator a b data P.world P.method n c
            P.source.position q.direction e (Rng.ofSeed q.seed) := by
  refine ⟨sideAxis, upAxis, frames_axes, ?_⟩
  intro data P hw hs hd fuel e states h
  obtain ⟨b, b1, b2, b3, b4, b5, _⟩ := C51_source_particle P.source hd (P.seed + e)
  obtain ⟨g, g1, g2⟩ := hs.energy
  obtain ⟨c, hc, hm'⟩ := hs.place
  refine ⟨b, c, g, b1, hc, g1, ?_⟩
  unfold Problem.history at h
  rw [b1] at h
  simp only [Bind.bind, Except.bind] at h
  cases hlog : processBank (transport P.method fuel P.world) P.perturbations fuel
      [Particle.ofBorn b] with
  | error e => rw [hlog] at h; cases h
  | ok log =>
    rw [hlog] at h
    simp only [Except.ok.injEq] at h
    subst h
    rw [← bank_gasFlights hw fuel hlog (by
      intro p hp
      rw [List.mem_singleton] at hp
      subst hp
      exact gasReady_ofBorn ⟨b4.trans hs.type, b5, g, b3.trans g1, g2⟩)]
    rw [List.map_singleton, List.sum_singleton]
    unfold partGasFlights freshIn Particle.ofBorn
    dsimp only
    rw [b2, cellAt_of_first hc, b3, g1]
    rfl

/-! ### Independent numbers -/

section Numbers

variable {a b : Direction → Direction} {data : Nuclide → Continuous} {w : World} {k : ℝ}

/-- **C105** If collisions leave at most `k < 1` neutrons on average, a neutron and its descendants make at
most `(K + 1) / (1 - k)` flights on average, where a line has at most `K` crossings with the surfaces. -/
theorem C105_flights (h : Frames a b) (hw : GasWorld data w) (hk0 : 0 ≤ k) (hk1 : k < 1)
    (hk : GasAtMost k data w) (method : Method) {c : Cell} (hc : c ∈ w.cells) (x : Point) {d : Direction}
    (hd : UnitVec d) {e : ℝ} (he : 0 < e) :
    meanGasFlights a b data w method c x d e ≤ ENNReal.ofReal ((crossable w + 1) / (1 - k)) := by
  rw [meanGasFlights_eq h]
  refine iSup_le fun n => (lintegral_gasFlights_le h hw hk0 hk1 hk method n hc x hd he).trans ?_
  rw [← bound_eq hk0 hk1]
  gcongr
  exact crossingsAhead_le w x d

/-- **C105** Long histories are rare. -/
theorem C105_long (h : Frames a b) (hw : GasWorld data w) (hk0 : 0 ≤ k) (hk1 : k < 1)
    (hk : GasAtMost k data w) (method : Method) {c : Cell} (hc : c ∈ w.cells) (x : Point) {d : Direction}
    (hd : UnitVec d) {e : ℝ} (he : 0 < e) {N : ℕ} (hN : 0 < N) :
    uniforms {us | (N : ℝ≥0∞) ≤ ⨆ n, gasFlights endless a b data w method n c x d e us} ≤
      ENNReal.ofReal ((crossable w + 1) / ((1 - k) * N)) := by
  have hN' : (0 : ℝ) < N := by exact_mod_cast hN
  have hm : Measurable fun us => ⨆ n, gasFlights endless a b data w method n c x d e us :=
    Measurable.iSup fun n => measurable_gasFlights_us h n c x d e
  refine (meas_ge_le_lintegral_div hm.aemeasurable (by exact_mod_cast hN.ne')
    (ENNReal.natCast_ne_top N)).trans ?_
  rw [← div_div, ENNReal.ofReal_div_of_pos hN', ENNReal.ofReal_natCast]
  exact ENNReal.div_le_div_right (C105_flights h hw hk0 hk1 hk method hc x hd he) _

/-- The mean numbers of neutrons that are still flying have a finite sum. -/
theorem gasFlying_sum (h : Frames a b) (hw : GasWorld data w) (hk0 : 0 ≤ k) (hk1 : k < 1)
    (hk : GasAtMost k data w) (method : Method) {c : Cell} (hc : c ∈ w.cells) (x : Point) {d : Direction}
    (hd : UnitVec d) {e : ℝ} (he : 0 < e) :
    ∑' n, ∫⁻ us, gasFlying endless a b data w method n c x d e us ∂uniforms ≠ ⊤ := by
  rw [← lintegral_tsum fun n => (measurable_gasFlying_us h n c x d e).aemeasurable]
  have eq : ∀ us, ∑' n, gasFlying endless a b data w method n c x d e us =
      ⨆ n, gasFlights endless a b data w method n c x d e us := by
    intro us
    rw [ENNReal.tsum_eq_iSup_nat]
    exact iSup_congr fun n => (gasFlights_eq n c x d e us).symm
  simp only [eq]
  exact ((C105_flights h hw hk0 hk1 hk method hc x hd he).trans_lt ENNReal.ofReal_lt_top).ne

/-- **C105** The mean number of neutrons that are still flying tends to zero. -/
theorem C105_vanish (h : Frames a b) (hw : GasWorld data w) (hk0 : 0 ≤ k) (hk1 : k < 1)
    (hk : GasAtMost k data w) (method : Method) {c : Cell} (hc : c ∈ w.cells) (x : Point) {d : Direction}
    (hd : UnitVec d) {e : ℝ} (he : 0 < e) :
    Tendsto (fun n => ∫⁻ us, gasFlying endless a b data w method n c x d e us ∂uniforms) atTop (𝓝 0) :=
  ENNReal.tendsto_atTop_zero_of_tsum_ne_top (gasFlying_sum h hw hk0 hk1 hk method hc x hd he)

theorem whole_gasRound {σ : Type} (S : Supply σ) {method : Method}
    {hit : SurfaceObj → Direction → ℝ → ℝ≥0∞} (hh : ∀ s d e, hit s d e ≤ hit s d e ^ 2)
    {next : Cell → Point → Direction → ℝ → σ → ℝ≥0∞}
    (hn : ∀ c x d e s, next c x d e s ≤ next c x d e s ^ 2) (c : Cell) (x : Point) (d : Direction) (e : ℝ)
    (s : σ) : gasRound S a b data w method hit next c x d e s ≤
      gasRound S a b data w method hit next c x d e s ^ 2 := by
  cases hm : c.material with
  | none => simp [gasRound_none hm]
  | some m =>
    rw [gasRound_some hm]
    split_ifs
    · unfold gasCrossed
      cases faced c x d with
      | none => simp
      | some f =>
        cases cellAt w (beyond c x d) with
        | none => simp
        | some c' => exact whole_add (hh _ _ _) (hn _ _ _ _ _)
    · unfold afterGas
      refine whole_byWeight _ _ fun i => ?_
      cases m.afracs[i]? with
      | none => simp
      | some y =>
        simp only [Option.elim_some]
        refine whole_byWeight _ _ fun j => ?_
        cases (data y.1).reactions[j]? with
        | none => simp
        | some r =>
          cases r with
          | capture ev => simp [afterReaction]
          | scatter ev tsl A => exact whole_gasScattered S _ _ _ _ (fun _ _ _ => hn _ _ _ _ _) _
          | fission ev nubar =>
            refine whole_gasBirths S (fun d' s' => ?_) _ _
            cases cellAt w (along x d (-Real.log (1 - S.number s) / collisionRate data m (heat c) e)) with
            | none => simp
            | some c' => exact hn _ _ _ _ _

theorem whole_gasFlying {σ : Type} (S : Supply σ) {method : Method} (n : ℕ) (c : Cell) (x : Point)
    (d : Direction) (e : ℝ) (s : σ) : gasFlying S a b data w method n c x d e s ≤
      gasFlying S a b data w method n c x d e s ^ 2 := by
  induction n generalizing c x d e s with
  | zero =>
    unfold gasFlying
    split_ifs <;> simp
  | succ n ih => exact whole_gasRound S (fun _ _ _ => by simp) ih c x d e s

/-- **C105** Almost surely no neutron is left after finitely many rounds. -/
theorem C105_dies_out (h : Frames a b) (hw : GasWorld data w) (hk0 : 0 ≤ k) (hk1 : k < 1)
    (hk : GasAtMost k data w) (method : Method) {c : Cell} (hc : c ∈ w.cells) (x : Point) {d : Direction}
    (hd : UnitVec d) {e : ℝ} (he : 0 < e) :
    ∀ᵐ us ∂uniforms, ∃ n, ∀ m, n ≤ m → gasFlying endless a b data w method m c x d e us = 0 := by
  have hsum := gasFlying_sum h hw hk0 hk1 hk method hc x hd he
  rw [← lintegral_tsum fun n => (measurable_gasFlying_us h n c x d e).aemeasurable] at hsum
  filter_upwards [ae_lt_top (Measurable.tsum fun n => measurable_gasFlying_us h n c x d e) hsum]
    with us hus
  have ht := ENNReal.tendsto_atTop_zero_of_tsum_ne_top hus.ne
  obtain ⟨n, hn⟩ := eventually_atTop.1 (ht.eventually (gt_mem_nhds zero_lt_one))
  refine ⟨n, fun m hm => ?_⟩
  have hlt := hn m hm
  have hwh := whole_gasFlying endless (a := a) (b := b) (data := data) (w := w) (method := method)
    m c x d e us
  by_contra h0
  set t := gasFlying endless a b data w method m c x d e us
  have : t ^ 2 < t := by
    rw [sq]
    conv_rhs => rw [← one_mul t]
    exact ENNReal.mul_lt_mul_left h0 (hlt.trans ENNReal.one_lt_top).ne hlt
  exact absurd hwh this.not_ge

variable {hit : SurfaceObj → Direction → ℝ → ℝ≥0∞}

/-- **C105** The mean score is bounded, if the score of a crossing is. -/
theorem C105_bounded (h : Frames a b) (hw : GasWorld data w) (hk0 : 0 ≤ k) (hk1 : k < 1)
    (hk : GasAtMost k data w) (method : Method) {H : ℝ≥0∞} (hH : ∀ s d e, hit s d e ≤ H) {c : Cell}
    (hc : c ∈ w.cells) (x : Point) {d : Direction} (hd : UnitVec d) {e : ℝ} (he : 0 < e) :
    meanGas a b data w method hit c x d e ≤ H * ENNReal.ofReal ((crossable w + 1) / (1 - k)) := by
  refine le_trans ?_ (mul_le_mul_right (C105_flights h hw hk0 hk1 hk method hc x hd he) H)
  unfold meanGas meanGasFlights
  rw [← lintegral_const_mul _ (Measurable.iSup fun n => measurable_gasFlights_us h n c x d e)]
  refine lintegral_mono fun us => iSup_le fun n => ?_
  exact (gasScore_le_flights hH n c x d e us).trans
    (mul_le_mul_right (le_iSup (fun n => gasFlights endless a b data w method n c x d e us) n) H)

/-- **C105** The mean score is the only bounded solution of the transport equation with thermal motion and
fission. -/
theorem C105_unique (h : Frames a b) (hw : GasWorld data w) (hk0 : 0 ≤ k) (hk1 : k < 1)
    (hk : GasAtMost k data w) (method : Method)
    (hh : ∀ s, Measurable fun q : Direction × ℝ => hit s q.1 q.2)
    {E : Cell → Point → Direction → ℝ → ℝ≥0∞} {B : ℝ≥0∞} (hB : B ≠ ⊤)
    (hE : ∀ c ∈ w.cells, ∀ x d e, UnitVec d → 0 < e → E c x d e ≤ B ∧
      E c x d e = gasTransported data w hit E c x d e)
    {c : Cell} (hc : c ∈ w.cells) (x : Point) {d : Direction} (hd : UnitVec d) {e : ℝ} (he : 0 < e) :
    E c x d e = meanGas a b data w method hit c x d e := by
  have hup : ∀ n, ∀ c ∈ w.cells, ∀ x d e, UnitVec d → 0 < e →
      E c x d e ≤ ∫⁻ us, (gasScore endless a b data w method hit n c x d e us +
        B * gasFlying endless a b data w method n c x d e us) ∂uniforms := by
    intro n
    induction n with
    | zero =>
      intro c hc x d e hd he
      obtain ⟨e1, e2⟩ := hE c hc x d e hd he
      cases hm : c.material with
      | none =>
        rw [e2]
        simp [gasTransported, hm]
      | some m => simpa [gasScore, gasFlying, hm] using e1
    | succ n ih =>
      intro c hc x d e hd he
      rw [(hE c hc x d e hd he).2]
      have eq : ∀ us, gasScore endless a b data w method hit (n + 1) c x d e us +
          B * gasFlying endless a b data w method (n + 1) c x d e us =
          gasRound endless a b data w method hit (fun c x d e s =>
            gasScore endless a b data w method hit n c x d e s +
              B * gasFlying endless a b data w method n c x d e s) c x d e us := by
        intro us
        rw [gasRound_linear, gasScore_round, gasFlying]
      simp only [eq]
      rw [lintegral_gasRound h hw method (fun c => (measurable_gasScore h data w method hh n c).add
        ((measurable_gasFlying h n c).const_mul B)) hc x hd he]
      exact gasTransported_mono ih hc x hd he
  refine le_antisymm ?_ (C81_smallest h hw method hh
    (fun c hc x d e hd he => (hE c hc x d e hd he).2.ge) hc x hd he)
  have hlim : Tendsto (fun n => meanGas a b data w method hit c x d e +
      B * ∫⁻ us, gasFlying endless a b data w method n c x d e us ∂uniforms) atTop
      (𝓝 (meanGas a b data w method hit c x d e + B * 0)) :=
    tendsto_const_nhds.add
      (ENNReal.Tendsto.const_mul (C105_vanish h hw hk0 hk1 hk method hc x hd he) (.inr hB))
  rw [mul_zero, add_zero] at hlim
  refine ge_of_tendsto' hlim fun n => (hup n c hc x d e hd he).trans ?_
  rw [lintegral_add_left (measurable_gasScore_us h hh n c x d e),
    lintegral_const_mul _ (measurable_gasFlying_us h n c x d e)]
  refine add_le_add ?_ le_rfl
  rw [meanGas_eq h hh]
  exact le_iSup (fun n => gasMean a b data w method hit n c x d e) n

/-- **C105** With independent numbers for each history, the average score almost surely tends to the
solution of the transport equation. -/
theorem C105_converges (h : Frames a b) (hw : GasWorld data w) (hk0 : 0 ≤ k) (hk1 : k < 1)
    (hk : GasAtMost k data w) (method : Method)
    (hh : ∀ s, Measurable fun q : Direction × ℝ => hit s q.1 q.2) {H : ℝ≥0∞} (hH : H ≠ ⊤)
    (hhit : ∀ s d e, hit s d e ≤ H) {E : Cell → Point → Direction → ℝ → ℝ≥0∞} {B : ℝ≥0∞} (hB : B ≠ ⊤)
    (hE : ∀ c ∈ w.cells, ∀ x d e, UnitVec d → 0 < e → E c x d e ≤ B ∧
      E c x d e = gasTransported data w hit E c x d e)
    {c : Cell} (hc : c ∈ w.cells) (x : Point) {d : Direction} (hd : UnitVec d) {e : ℝ} (he : 0 < e) :
    ∀ᵐ histories ∂(Measure.infinitePi fun _ : ℕ => uniforms),
      Tendsto
        (fun n : ℕ => (∑ j ∈ Finset.range n,
          (⨆ i, gasScore endless a b data w method hit i c x d e (histories j)).toReal) / n)
        atTop (𝓝 (E c x d e).toReal) := by
  rw [C105_unique h hw hk0 hk1 hk method hh hB hE hc x hd he]
  exact C81_converges h hh
    ((C105_bounded h hw hk0 hk1 hk method hhit hc x hd he).trans_lt
      (ENNReal.mul_lt_top hH.lt_top ENNReal.ofReal_lt_top)).ne

/-! ### Instance: the ball of gas -/

theorem plume_atMost (method : Method) :
    GasAtMost (5 / 7) (fun _ => plumeData) (plumeProblem method).world := by
  intro c hc m hm e he
  simp only [plumeProblem, List.mem_cons, List.not_mem_nil, or_false] at hc
  rcases hc with rfl | rfl
  · cases hm
    exact plume_multiplies e
  · cases hm

theorem plume_crossable (method : Method) : crossable (plumeProblem method).world = 2 := by
  have : shapesOf (plumeProblem method).world = {(ball 1 1).shape} := by
    simp [shapesOf, plumeProblem, plumeIn, fogOut]
  unfold crossable
  rw [this, Finset.sum_singleton]
  rfl

/-- In the ball of gas a neutron and its descendants make at most eleven flights on average. -/
theorem plume_flights (h : Frames a b) (method : Method) (x : Point) {d : Direction} (hd : UnitVec d)
    {e : ℝ} (he : 0 < e) :
    meanGasFlights a b (fun _ => plumeData) (plumeProblem method).world method plumeIn x d e ≤ 11 := by
  have key := C105_flights h (plume_world method) (by norm_num) (by norm_num) (plume_atMost method) method
    (c := plumeIn) (by simp [plumeProblem]) x hd he
  rw [plume_crossable] at key
  refine key.trans ?_
  rw [show (11 : ℝ≥0∞) = ENNReal.ofReal 11 by simp]
  exact ENNReal.ofReal_le_ofReal (by norm_num)

/-- Instance of the hypotheses of `C105_unique` and `C105_converges`: the mean itself is a bounded
solution. -/
example (h : Frames a b) (method : Method) {d : Direction} (hd : UnitVec d) :
    ∀ᵐ histories ∂(Measure.infinitePi fun _ : ℕ => uniforms),
      Tendsto
        (fun n : ℕ => (∑ j ∈ Finset.range n,
          (⨆ i, gasScore endless a b (fun _ => plumeData) (plumeProblem method).world method
            (energyHit (ball 1 1) oneBin 0) i plumeIn ⟨0, 0, 0⟩ d (3 / 2) (histories j)).toReal) / n)
        atTop (𝓝 (meanGas a b (fun _ => plumeData) (plumeProblem method).world .surfaceTracking
          (energyHit (ball 1 1) oneBin 0) plumeIn ⟨0, 0, 0⟩ d (3 / 2)).toReal) := by
  have hw := plume_world method
  have hh := measurable_energyHit (ball 1 1) oneBin 0
  have hhit : ∀ s d e, energyHit (ball 1 1) oneBin 0 s d e ≤ 1 := by
    intro s d g
    unfold energyHit
    split_ifs <;> simp
  exact C105_converges h hw (by norm_num) (by norm_num) (plume_atMost method) method hh ENNReal.one_ne_top
    hhit (ENNReal.mul_ne_top ENNReal.one_ne_top ENNReal.ofReal_ne_top)
    (fun c hc x d e hd he =>
      ⟨C105_bounded h hw (by norm_num) (by norm_num) (plume_atMost method) .surfaceTracking hhit hc x hd he,
        C81_equation h hw .surfaceTracking hh hc x hd he⟩)
    (by simp [plumeProblem]) _ hd (by norm_num)

/-- Instance of the hypotheses of `C105_dies_out` and `C105_vanish`. -/
example (h : Frames a b) (method : Method) {d : Direction} (hd : UnitVec d) :
    (∀ᵐ us ∂uniforms, ∃ n, ∀ m, n ≤ m → gasFlying endless a b (fun _ => plumeData)
      (plumeProblem method).world method m plumeIn ⟨0, 0, 0⟩ d (3 / 2) us = 0) ∧
    Tendsto (fun n => ∫⁻ us, gasFlying endless a b (fun _ => plumeData) (plumeProblem method).world method n
      plumeIn ⟨0, 0, 0⟩ d (3 / 2) us ∂uniforms) atTop (𝓝 0) :=
  ⟨C105_dies_out h (plume_world method) (by norm_num) (by norm_num) (plume_atMost method) method
    (by simp [plumeProblem]) _ hd (by norm_num),
  C105_vanish h (plume_world method) (by norm_num) (by norm_num) (plume_atMost method) method
    (by simp [plumeProblem]) _ hd (by norm_num)⟩

/-- Instance of the hypotheses of `C105_long`: at most eleven in a hundred histories have a hundred
flights. -/
example (h : Frames a b) (method : Method) {d : Direction} (hd : UnitVec d) :
    uniforms {us | ((100 : ℕ) : ℝ≥0∞) ≤ ⨆ n, gasFlights endless a b (fun _ => plumeData)
      (plumeProblem method).world method n plumeIn ⟨0, 0, 0⟩ d (3 / 2) us} ≤ ENNReal.ofReal (11 / 100) := by
  have key := C105_long h (plume_world method) (by norm_num) (by norm_num) (plume_atMost method) method
    (c := plumeIn) (by simp [plumeProblem]) ⟨0, 0, 0⟩ hd (e := 3 / 2) (by norm_num) (N := 100) (by norm_num)
  rw [plume_crossable] at key
  exact key.trans (ENNReal.ofReal_le_ofReal (by norm_num))

end Numbers

/-! ### Instance: a history of the ball of warm gas -/

/-- Instance of the hypotheses of `C105_history`: in history two the neutron leaves the ball without a
collision, and the game has one flight. -/
example : ∃ a b, Frames a b ∧ ∃ q, (warmProblem .surfaceTracking).source.sample 3 = .ok q ∧
    ⨆ n, gasFlights generator a b (fun _ => warmData) (warmProblem .surfaceTracking).world
      .surfaceTracking n warmIn ⟨0, 0, 0⟩ q.direction (3 / 2) (Rng.ofSeed q.seed) = 1 := by
  obtain ⟨ax, bx, hf, hist⟩ := C105_history
  refine ⟨ax, bx, hf, ?_⟩
  set P := warmProblem .surfaceTracking with hP
  have hw : GasWorld (fun _ => warmData) P.world := warm_world .surfaceTracking
  have hd : Configured P.source.direction := by
    norm_num [hP, warmProblem, Configured, UnitVec]
  have hcell := (warm_cells .surfaceTracking ⟨0, 0, 0⟩).1 (by norm_num)
  obtain ⟨l, hl⟩ := beam_single hw (c := warmIn) (m := warmGas) (j := 2) rfl rfl rfl rfl
    (fun x hx => (warm_cells .surfaceTracking x).1 hx) (fun x hx => (warm_cells .surfaceTracking x).2 hx)
    rfl rfl warm_rate
  obtain ⟨q, c, e, c1, c2, c3, c4⟩ := hist hw
    ⟨rfl, ⟨3 / 2, rfl, by norm_num⟩, _, hcell, by simp [warmIn]⟩ hd hl
  cases c3
  cases firstCell_unique c2 hcell
  refine ⟨q, c1, ?_⟩
  rw [List.length_singleton, Nat.cast_one] at c4
  exact c4.symm

end Minimc.Props
