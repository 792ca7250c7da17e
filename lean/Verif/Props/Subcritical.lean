import Verif.Lemmas.FlightsFollow
import Verif.Props.Coal
import Verif.Props.RunSafety
import Verif.Lemmas.GasLimit
import Mathlib.MeasureTheory.Constructions.Polish.Basic

/-! # Properties: problems in which neutrons die out (C82) -/

namespace Minimc.Props

open Classical Spec MeasureTheory ProbabilityTheory Filter Topology
open scoped ENNReal

/-! ### Histories of the program -/

/-- **C82** The states of a history are the flights of the game that is played with the generators of the
source particle and of its descendants. -/
theorem C82_history {G : ℕ} {nodes : Nuclide → List MgNode} {P : Problem}
    (hw : WellPosed G nodes P.world) (hs : GroupSource G P.world P.source)
    (hd : Configured P.source.direction) {fuel e : ℕ} {states : List Particle}
    (h : P.history fuel e = .ok states) :
    ∃ b c g, P.source.sample (P.seed + e) = .ok b ∧ FirstCell P.world P.source.position c ∧
      P.source.energy = .group g ∧
      (states.length : ℝ≥0∞) = ⨆ n, flightsMade generator G nodes P.world P.method n c
        P.source.position b.direction g (Rng.ofSeed b.seed) := by
  obtain ⟨b, b1, b2, b3, b4, b5, _⟩ := C51_source_particle P.source hd (P.seed + e)
  obtain ⟨g, g1, g2, g3⟩ := hs.group
  obtain ⟨c, hc, hm'⟩ := hs.place
  refine ⟨b, c, g, b1, hc, g1, ?_⟩
  unfold Problem.history at h
  rw [b1] at h
  simp only [Bind.bind, Except.bind] at h
  cases hlog : processBank (transport P.method fuel P.world) P.perturbations fuel
      [Particle.ofBorn b] with
  | error e => rw [hlog] at h; cases h
  | ok log =>
    rw [hlog] at h
    simp only [Except.ok.injEq] at h
    subst h
    rw [← bank_flights hw fuel hlog (by
      intro p hp
      rw [List.mem_singleton] at hp
      subst hp
      exact ready_ofBorn (b4.trans hs.type) ⟨g, b3.trans g1, g2, g3⟩)]
    rw [List.map_singleton, List.sum_singleton]
    unfold partFlights startAt Particle.ofBorn
    dsimp only
    rw [b2, cellAt_of_first hc, b3, g1]
    rfl

/-- **C82** A history in which the game has at most `N` flights ends after at most so many rounds of the
loops over the particles and their flights: with more fuel it has its states, or a fission neutron
starts at a point whose first cell has no material. -/
theorem C82_history_ends {G : ℕ} {nodes : Nuclide → List MgNode} {P : Problem}
    (hw : WellPosed G nodes P.world) (hs : GroupSource G P.world P.source)
    (hd : Configured P.source.direction) {e N : ℕ}
    (hN : ∀ b c g, P.source.sample (P.seed + e) = .ok b → FirstCell P.world P.source.position c →
      P.source.energy = .group g → ∀ n, flightsMade generator G nodes P.world P.method n c
        P.source.position b.direction g (Rng.ofSeed b.seed) ≤ N) {fuel : ℕ} (hf : N < fuel) :
    (∃ states, P.history fuel e = .ok states ∧ states.length ≤ N) ∨
      ∃ p, Handled P fuel e p ∧ StartsInVoid P.world p := by
  rcases C65_history_partial hw hs hd fuel e with ⟨states, h, -⟩ | h | h
  · obtain ⟨b, c, g, h1, h2, h3, h4⟩ := C82_history hw hs hd h
    refine .inl ⟨states, h, ?_⟩
    have : ((states.length : ℕ) : ℝ≥0∞) ≤ ((N : ℕ) : ℝ≥0∞) := by
      rw [h4]
      exact iSup_le (hN b c g h1 h2 h3)
    exact_mod_cast this
  · exfalso
    obtain ⟨b, b1, b2, b3, b4, b5, _⟩ := C51_source_particle P.source hd (P.seed + e)
    obtain ⟨g, g1, g2, g3⟩ := hs.group
    obtain ⟨c, hc, hm'⟩ := hs.place
    have key := bank_ends hw (qs := P.perturbations) (method := P.method) N (fuel := fuel) (k := fuel)
      (bank := [Particle.ofBorn b]) (by
        rw [List.map_singleton, List.sum_singleton]
        unfold partFlights startAt Particle.ofBorn
        dsimp only
        rw [b2, cellAt_of_first hc, b3, g1]
        exact iSup_le (hN b c g b1 hc g1)) hf hf (by
        intro p hp
        rw [List.mem_singleton] at hp
        subst hp
        exact ready_ofBorn (b4.trans hs.type) ⟨g, b3.trans g1, g2, g3⟩)
    unfold Problem.history at h
    rw [b1] at h
    simp only [Bind.bind, Except.bind] at h
    cases hlog : processBank (transport P.method fuel P.world) P.perturbations fuel
        [Particle.ofBorn b] with
    | error e =>
      rw [hlog] at h
      cases h
      exact key hlog
    | ok log =>
      rw [hlog] at h
      cases h
  · exact .inr h

/-! ### Independent numbers -/

/-- **C82** If collisions leave at most `k < 1` neutrons on average, a neutron and its descendants make at
most `(K + 1) / (1 - k)` flights on average, where a line has at most `K` crossings with the surfaces. -/
theorem C82_flights {G : ℕ} {nodes : Nuclide → List MgNode} {w : World} (hw : WellPosed G nodes w) {k : ℝ}
    (hk0 : 0 ≤ k) (hk1 : k < 1) (hk : AtMost k G nodes w) (method : Method) {c : Cell} (hc : c ∈ w.cells)
    (x : Point) {d : Direction} (hd : UnitVec d) {g : ℕ} (h1 : 1 ≤ g) (h2 : g ≤ G) :
    meanFlights G nodes w method c x d g ≤ ENNReal.ofReal ((crossable w + 1) / (1 - k)) := by
  rw [meanFlights_eq]
  refine iSup_le fun n => (lintegral_flightsMade_le hw hk0 hk1 hk method n hc x hd h1 h2).trans ?_
  rw [← bound_eq hk0 hk1]
  gcongr
  exact crossingsAhead_le w x d

/-- **C82** Long histories are rare. -/
theorem C82_long {G : ℕ} {nodes : Nuclide → List MgNode} {w : World} (hw : WellPosed G nodes w) {k : ℝ}
    (hk0 : 0 ≤ k) (hk1 : k < 1) (hk : AtMost k G nodes w) (method : Method) {c : Cell} (hc : c ∈ w.cells)
    (x : Point) {d : Direction} (hd : UnitVec d) {g : ℕ} (h1 : 1 ≤ g) (h2 : g ≤ G) {N : ℕ} (hN : 0 < N) :
    uniforms {us | (N : ℝ≥0∞) ≤ ⨆ n, flightsMade endless G nodes w method n c x d g us} ≤
      ENNReal.ofReal ((crossable w + 1) / ((1 - k) * N)) := by
  have hN' : (0 : ℝ) < N := by exact_mod_cast hN
  have hm : Measurable fun us => ⨆ n, flightsMade endless G nodes w method n c x d g us :=
    Measurable.iSup fun n => measurable_flightsMade_us n c x d g
  refine (meas_ge_le_lintegral_div hm.aemeasurable (by exact_mod_cast hN.ne')
    (ENNReal.natCast_ne_top N)).trans ?_
  rw [← div_div, ENNReal.ofReal_div_of_pos hN', ENNReal.ofReal_natCast]
  exact ENNReal.div_le_div_right (C82_flights hw hk0 hk1 hk method hc x hd h1 h2) _

/-- The mean numbers of neutrons that are still flying have a finite sum. -/
theorem stillFlying_sum {G : ℕ} {nodes : Nuclide → List MgNode} {w : World} (hw : WellPosed G nodes w)
    {k : ℝ} (hk0 : 0 ≤ k) (hk1 : k < 1) (hk : AtMost k G nodes w) (method : Method) {c : Cell}
    (hc : c ∈ w.cells) (x : Point) {d : Direction} (hd : UnitVec d) {g : ℕ} (h1 : 1 ≤ g) (h2 : g ≤ G) :
    ∑' n, ∫⁻ us, stillFlying endless G nodes w method n c x d g us ∂uniforms ≠ ⊤ := by
  rw [← lintegral_tsum fun n => (measurable_stillFlying_us n c x d g).aemeasurable]
  have e : ∀ us, ∑' n, stillFlying endless G nodes w method n c x d g us =
      ⨆ n, flightsMade endless G nodes w method n c x d g us := by
    intro us
    rw [ENNReal.tsum_eq_iSup_nat]
    exact iSup_congr fun n => (flightsMade_eq n c x d g us).symm
  simp only [e]
  exact ((C82_flights hw hk0 hk1 hk method hc x hd h1 h2).trans_lt ENNReal.ofReal_lt_top).ne

/-- **C82** The mean number of neutrons that are still flying tends to zero. -/
theorem C82_vanish {G : ℕ} {nodes : Nuclide → List MgNode} {w : World} (hw : WellPosed G nodes w) {k : ℝ}
    (hk0 : 0 ≤ k) (hk1 : k < 1) (hk : AtMost k G nodes w) (method : Method) {c : Cell} (hc : c ∈ w.cells)
    (x : Point) {d : Direction} (hd : UnitVec d) {g : ℕ} (h1 : 1 ≤ g) (h2 : g ≤ G) :
    Tendsto (fun n => ∫⁻ us, stillFlying endless G nodes w method n c x d g us ∂uniforms) atTop (𝓝 0) :=
  ENNReal.tendsto_atTop_zero_of_tsum_ne_top (stillFlying_sum hw hk0 hk1 hk method hc x hd h1 h2)

theorem whole_oneRound {σ : Type} (S : Supply σ) {G : ℕ} {nodes : Nuclide → List MgNode} {w : World}
    {method : Method} {hit : SurfaceObj → Direction → ℕ → ℝ≥0∞} (hh : ∀ s d g, hit s d g ≤ hit s d g ^ 2)
    {next : Cell → Point → Direction → ℕ → σ → ℝ≥0∞}
    (hn : ∀ c x d g s, next c x d g s ≤ next c x d g s ^ 2) (c : Cell) (x : Point) (d : Direction) (g : ℕ)
    (s : σ) : oneRound S G nodes w method hit next c x d g s ≤
      oneRound S G nodes w method hit next c x d g s ^ 2 := by
  unfold oneRound
  cases c.material with
  | none => simp
  | some m =>
    simp only [Option.elim_some]
    split_ifs
    · cases faced c x d with
      | none => simp
      | some f =>
        cases cellAt w (beyond c x d) with
        | none => simp
        | some c' => exact whole_add (hh _ _ _) (hn _ _ _ _ _)
    · unfold afterEvent
      refine whole_byWeight _ _ fun i => ?_
      cases m.afracs[i]? with
      | none => simp
      | some e =>
        simp only [Option.elim_some]
        refine whole_byWeight _ _ fun r => ?_
        split_ifs
        · exact whole_byWeight _ _ fun j => hn _ _ _ _ _
        · refine whole_births _ _ (fun d' g' s' => ?_) _ _
          cases cellAt w (along x d (-Real.log (1 - S.number s) / macroscopic G nodes g m)) with
          | none => simp
          | some c' => exact hn _ _ _ _ _
        · simp

theorem whole_stillFlying {σ : Type} (S : Supply σ) {G : ℕ} {nodes : Nuclide → List MgNode} {w : World}
    {method : Method} (n : ℕ) (c : Cell) (x : Point) (d : Direction) (g : ℕ) (s : σ) :
    stillFlying S G nodes w method n c x d g s ≤ stillFlying S G nodes w method n c x d g s ^ 2 := by
  induction n generalizing c x d g s with
  | zero =>
    unfold stillFlying
    split_ifs <;> simp
  | succ n ih => exact whole_oneRound S (fun _ _ _ => by simp) ih c x d g s

/-- **C82** Almost surely no neutron is left after finitely many rounds. -/
theorem C82_dies_out {G : ℕ} {nodes : Nuclide → List MgNode} {w : World} (hw : WellPosed G nodes w) {k : ℝ}
    (hk0 : 0 ≤ k) (hk1 : k < 1) (hk : AtMost k G nodes w) (method : Method) {c : Cell} (hc : c ∈ w.cells)
    (x : Point) {d : Direction} (hd : UnitVec d) {g : ℕ} (h1 : 1 ≤ g) (h2 : g ≤ G) :
    ∀ᵐ us ∂uniforms, ∃ n, ∀ m, n ≤ m → stillFlying endless G nodes w method m c x d g us = 0 := by
  have hsum := stillFlying_sum hw hk0 hk1 hk method hc x hd h1 h2
  rw [← lintegral_tsum fun n => (measurable_stillFlying_us n c x d g).aemeasurable] at hsum
  filter_upwards [ae_lt_top (Measurable.tsum fun n => measurable_stillFlying_us n c x d g) hsum]
    with us hus
  have ht := ENNReal.tendsto_atTop_zero_of_tsum_ne_top hus.ne
  obtain ⟨n, hn⟩ := eventually_atTop.1 (ht.eventually (gt_mem_nhds zero_lt_one))
  refine ⟨n, fun m hm => ?_⟩
  have hlt := hn m hm
  have hwh := whole_stillFlying endless (G := G) (nodes := nodes) (w := w) (method := method) m c x d g us
  by_contra h0
  set t := stillFlying endless G nodes w method m c x d g us
  have : t ^ 2 < t := by
    rw [sq]
    conv_rhs => rw [← one_mul t]
    exact ENNReal.mul_lt_mul_left h0 (hlt.trans ENNReal.one_lt_top).ne hlt
  exact absurd hwh this.not_ge

/-- **C82** The mean score is bounded, if the score of a crossing is. -/
theorem C82_bounded {G : ℕ} {nodes : Nuclide → List MgNode} {w : World} (hw : WellPosed G nodes w) {k : ℝ}
    (hk0 : 0 ≤ k) (hk1 : k < 1) (hk : AtMost k G nodes w) (method : Method)
    {hit : SurfaceObj → Direction → ℕ → ℝ≥0∞} {H : ℝ≥0∞} (hH : ∀ s d g, hit s d g ≤ H) {c : Cell}
    (hc : c ∈ w.cells) (x : Point) {d : Direction} (hd : UnitVec d) {g : ℕ} (h1 : 1 ≤ g) (h2 : g ≤ G) :
    meanChain G nodes w method hit c x d g ≤ H * ENNReal.ofReal ((crossable w + 1) / (1 - k)) := by
  refine le_trans ?_ (mul_le_mul_right (C82_flights hw hk0 hk1 hk method hc x hd h1 h2) H)
  unfold meanChain meanFlights
  rw [← lintegral_const_mul _ (Measurable.iSup fun n => measurable_flightsMade_us n c x d g)]
  refine lintegral_mono fun us => iSup_le fun n => ?_
  exact (chainScore_le_flights hH n c x d g us).trans
    (mul_le_mul_right (le_iSup (fun n => flightsMade endless G nodes w method n c x d g us) n) H)

/-! ### Only one solution -/

theorem transported_mono_unit {G : ℕ} {nodes : Nuclide → List MgNode} {w : World}
    {hit : SurfaceObj → Direction → ℕ → ℝ≥0∞} {E E' : Cell → Point → Direction → ℕ → ℝ≥0∞}
    (h : ∀ c ∈ w.cells, ∀ x d g, UnitVec d → 1 ≤ g → g ≤ G → E c x d g ≤ E' c x d g) {c : Cell}
    (hc : c ∈ w.cells) (x : Point) {d : Direction} (hd : UnitVec d) {g : ℕ} (h1 : 1 ≤ g) (h2 : g ≤ G) :
    transported G nodes w hit E c x d g ≤ transported G nodes w hit E' c x d g := by
  cases hm : c.material with
  | none => simp [transported, hm]
  | some m =>
    rw [transported_some hm, transported_some hm]
    refine add_le_add (lintegral_mono fun s => ?_) ?_
    · refine mul_le_mul_right ?_ _
      unfold emission
      refine Finset.sum_le_sum fun g' hg => ?_
      rw [Finset.mem_Icc] at hg
      exact mul_le_mul_right (sphereMean_mono_unit fun d' hd' => h c hc _ d' g' hd' hg.1 hg.2) _
    · split_ifs
      · exact le_rfl
      · exact mul_le_mul_right (crossed_mono fun c hc x => h c hc x d g hd h1 h2) _

theorem bred_mono_unit {G : ℕ} {nodes : Nuclide → List MgNode} {w : World}
    {E E' : Cell → Point → Direction → ℕ → ℝ≥0∞}
    (h : ∀ c ∈ w.cells, ∀ x d g, UnitVec d → 1 ≤ g → g ≤ G → E c x d g ≤ E' c x d g) (c : Cell) (x : Point)
    (d : Direction) (g : ℕ) : bred G nodes w E c x d g ≤ bred G nodes w E' c x d g := by
  cases hm : c.material with
  | none => rw [bred_none hm, bred_none hm]
  | some m =>
    rw [bred_some hm, bred_some hm]
    refine lintegral_mono fun s => mul_le_mul_right ?_ _
    unfold fissionEmission
    refine Finset.sum_le_sum fun g' hg => ?_
    rw [Finset.mem_Icc] at hg
    refine mul_le_mul_right (sphereMean_mono_unit fun d' hd' => ?_) _
    cases hcl : cellAt w (along x d s) with
    | none => exact le_rfl
    | some c' => exact h c' (cellAt_mem hcl) _ d' g' hd' hg.1 hg.2

/-- **C82** The mean score is the only bounded solution of the transport equation. -/
theorem C82_unique {G : ℕ} {nodes : Nuclide → List MgNode} {w : World} (hw : WellPosed G nodes w) {k : ℝ}
    (hk0 : 0 ≤ k) (hk1 : k < 1) (hk : AtMost k G nodes w) (method : Method)
    {hit : SurfaceObj → Direction → ℕ → ℝ≥0∞} (hh : ∀ s g, Measurable fun d => hit s d g)
    {E : Cell → Point → Direction → ℕ → ℝ≥0∞} {B : ℝ≥0∞} (hB : B ≠ ⊤)
    (hE : ∀ c ∈ w.cells, ∀ x d g, UnitVec d → 1 ≤ g → g ≤ G → E c x d g ≤ B ∧
      E c x d g = transported G nodes w hit E c x d g + bred G nodes w E c x d g)
    {c : Cell} (hc : c ∈ w.cells) (x : Point) {d : Direction} (hd : UnitVec d) {g : ℕ} (h1 : 1 ≤ g)
    (h2 : g ≤ G) : E c x d g = meanChain G nodes w method hit c x d g := by
  have hlow : ∀ n, ∀ c ∈ w.cells, ∀ x d g, UnitVec d → 1 ≤ g → g ≤ G →
      chainMean G nodes w method hit n c x d g ≤ E c x d g := by
    intro n
    induction n with
    | zero =>
      intro c _ x d g _ _ _
      simp [chainMean, chainScore]
    | succ n ih =>
      intro c hc x d g hd h1 h2
      rw [chainMean_succ hw method hh n hc x d h1 h2, (hE c hc x d g hd h1 h2).2]
      exact add_le_add (transported_mono_unit ih hc x hd h1 h2) (bred_mono_unit ih c x d g)
  have hup : ∀ n, ∀ c ∈ w.cells, ∀ x d g, UnitVec d → 1 ≤ g → g ≤ G →
      E c x d g ≤ ∫⁻ us, (chainScore endless G nodes w method hit n c x d g us +
        B * stillFlying endless G nodes w method n c x d g us) ∂uniforms := by
    intro n
    induction n with
    | zero =>
      intro c hc x d g hd h1 h2
      obtain ⟨e1, e2⟩ := hE c hc x d g hd h1 h2
      cases hm : c.material with
      | none =>
        rw [e2]
        simp [transported, bred, hm]
      | some m => simpa [chainScore, stillFlying, hm] using e1
    | succ n ih =>
      intro c hc x d g hd h1 h2
      rw [(hE c hc x d g hd h1 h2).2]
      have e : ∀ us, chainScore endless G nodes w method hit (n + 1) c x d g us +
          B * stillFlying endless G nodes w method (n + 1) c x d g us =
          oneRound endless G nodes w method hit (fun c x d g s =>
            chainScore endless G nodes w method hit n c x d g s +
              B * stillFlying endless G nodes w method n c x d g s) c x d g us := by
        intro us
        rw [oneRound_linear]
        rfl
      simp only [e]
      rw [lintegral_oneRound hw method (fun c g => (measurable_chainScore G nodes w method hh n c g).add
        ((measurable_stillFlying n c g).const_mul B)) hc x d h1 h2]
      exact add_le_add (transported_mono_unit ih hc x hd h1 h2) (bred_mono_unit ih c x d g)
  refine le_antisymm ?_ ?_
  · have hlim : Tendsto (fun n => meanChain G nodes w method hit c x d g +
        B * ∫⁻ us, stillFlying endless G nodes w method n c x d g us ∂uniforms) atTop
        (𝓝 (meanChain G nodes w method hit c x d g + B * 0)) :=
      tendsto_const_nhds.add
        (ENNReal.Tendsto.const_mul (C82_vanish hw hk0 hk1 hk method hc x hd h1 h2) (.inr hB))
    rw [mul_zero, add_zero] at hlim
    refine ge_of_tendsto' hlim fun n => (hup n c hc x d g hd h1 h2).trans ?_
    rw [lintegral_add_left (measurable_chainScore_us _ _ _ _ hh n c x d g),
      lintegral_const_mul _ (measurable_stillFlying_us n c x d g)]
    refine add_le_add ?_ le_rfl
    rw [meanChain_eq hh]
    exact le_iSup (fun n => chainMean G nodes w method hit n c x d g) n
  · rw [meanChain_eq hh]
    exact iSup_le fun n => hlow n c hc x d g hd h1 h2

/-- **C82** With independent numbers for each history, the average score almost surely tends to the
solution of the transport equation. -/
theorem C82_converges {G : ℕ} {nodes : Nuclide → List MgNode} {w : World} (hw : WellPosed G nodes w) {k : ℝ}
    (hk0 : 0 ≤ k) (hk1 : k < 1) (hk : AtMost k G nodes w) (method : Method)
    {hit : SurfaceObj → Direction → ℕ → ℝ≥0∞} (hh : ∀ s g, Measurable fun d => hit s d g) {H : ℝ≥0∞}
    (hH : H ≠ ⊤) (hhit : ∀ s d g, hit s d g ≤ H)
    {E : Cell → Point → Direction → ℕ → ℝ≥0∞} {B : ℝ≥0∞} (hB : B ≠ ⊤)
    (hE : ∀ c ∈ w.cells, ∀ x d g, UnitVec d → 1 ≤ g → g ≤ G → E c x d g ≤ B ∧
      E c x d g = transported G nodes w hit E c x d g + bred G nodes w E c x d g)
    {c : Cell} (hc : c ∈ w.cells) (x : Point) {d : Direction} (hd : UnitVec d) {g : ℕ} (h1 : 1 ≤ g)
    (h2 : g ≤ G) :
    ∀ᵐ histories ∂(Measure.infinitePi fun _ : ℕ => uniforms),
      Tendsto
        (fun n : ℕ => (∑ e ∈ Finset.range n,
          (⨆ k, chainScore endless G nodes w method hit k c x d g (histories e)).toReal) / n)
        atTop (𝓝 (E c x d g).toReal) := by
  rw [C82_unique hw hk0 hk1 hk method hh hB hE hc x hd h1 h2]
  exact C78_converges hh
    ((C82_bounded hw hk0 hk1 hk method hhit hc x hd h1 h2).trans_lt
      (ENNReal.mul_lt_top hH.lt_top ENNReal.ofReal_lt_top)).ne

/-! ### Instance: the ball of coal -/

theorem coal_atMost (method : Method) :
    AtMost (1 / 2) 1 (fun _ => coalNodes) (coalProblem method).world := by
  intro c hc m hm g h1 h2
  obtain rfl : g = 1 := by omega
  simp only [coalProblem, List.mem_cons, List.not_mem_nil, or_false] at hc
  rcases hc with rfl | rfl
  · cases hm
    rw [coal_multiplies, coal_rate]
    norm_num
  · cases hm

theorem coal_crossable (method : Method) : crossable (coalProblem method).world = 2 := by
  have : shapesOf (coalProblem method).world = {(ball 1 1).shape} := by
    simp [shapesOf, coalProblem, coalIn, fogOut]
  unfold crossable
  rw [this, Finset.sum_singleton]
  rfl

/-- In the ball of coal a neutron and its descendants make at most six flights on average. -/
theorem coal_flights (method : Method) (x : Point) {d : Direction} (hd : UnitVec d) :
    meanFlights 1 (fun _ => coalNodes) (coalProblem method).world method coalIn x d 1 ≤ 6 := by
  have h := C82_flights (coal_wellPosed method) (by norm_num) (by norm_num) (coal_atMost method) method
    (c := coalIn) (by simp [coalProblem]) x hd le_rfl le_rfl
  rw [coal_crossable] at h
  refine h.trans ?_
  rw [show (((2 : ℕ) : ℝ) + 1) / (1 - 1 / 2) = 6 by norm_num]
  simp

/-- Instance of the hypotheses of `C82_unique` and `C82_converges`: the mean itself is a bounded
solution. -/
example (method : Method) {d : Direction} (hd : UnitVec d) :
    ∀ᵐ histories ∂(Measure.infinitePi fun _ : ℕ => uniforms),
      Tendsto
        (fun n : ℕ => (∑ e ∈ Finset.range n,
          (⨆ k, chainScore endless 1 (fun _ => coalNodes) (coalProblem method).world method
            (currentHit (ball 1 1) oneBin 0) k coalIn ⟨0, 0, 0⟩ d 1 (histories e)).toReal) / n)
        atTop (𝓝 (meanChain 1 (fun _ => coalNodes) (coalProblem method).world .surfaceTracking
          (currentHit (ball 1 1) oneBin 0) coalIn ⟨0, 0, 0⟩ d 1).toReal) := by
  have hw := coal_wellPosed method
  have hh := measurable_currentHit (ball 1 1) oneBin 0
  have hhit : ∀ s d g, currentHit (ball 1 1) oneBin 0 s d g ≤ 1 := by
    intro s d g
    unfold currentHit
    split_ifs <;> simp
  exact C82_converges hw (by norm_num) (by norm_num) (coal_atMost method) method hh ENNReal.one_ne_top hhit
    (ENNReal.mul_ne_top ENNReal.one_ne_top ENNReal.ofReal_ne_top)
    (fun c hc x d g hd h1 h2 =>
      ⟨C82_bounded hw (by norm_num) (by norm_num) (coal_atMost method) .surfaceTracking hhit hc x hd h1 h2,
        C78_equation hw .surfaceTracking hh hc x d h1 h2⟩)
    (by simp [coalProblem]) _ hd le_rfl le_rfl

/-- Instance of the hypotheses of `C82_dies_out`. -/
example (method : Method) {d : Direction} (hd : UnitVec d) :
    ∀ᵐ us ∂uniforms, ∃ n, ∀ m, n ≤ m → stillFlying endless 1 (fun _ => coalNodes)
      (coalProblem method).world method m coalIn ⟨0, 0, 0⟩ d 1 us = 0 :=
  C82_dies_out (coal_wellPosed method) (by norm_num) (by norm_num) (coal_atMost method) method
    (by simp [coalProblem]) _ hd le_rfl le_rfl

/-- Instance of the hypotheses of `C82_long`: at most six in a hundred histories have a hundred
flights. -/
example (method : Method) {d : Direction} (hd : UnitVec d) :
    uniforms {us | ((100 : ℕ) : ℝ≥0∞) ≤ ⨆ n, flightsMade endless 1 (fun _ => coalNodes)
      (coalProblem method).world method n coalIn ⟨0, 0, 0⟩ d 1 us} ≤ ENNReal.ofReal (6 / 100) := by
  have h := C82_long (coal_wellPosed method) (by norm_num) (by norm_num) (coal_atMost method) method
    (c := coalIn) (by simp [coalProblem]) ⟨0, 0, 0⟩ hd le_rfl le_rfl (N := 100) (by norm_num)
  rw [coal_crossable] at h
  norm_num at h ⊢
  exact h

/-! ### Instance: a history of the ball of embers -/

/-- Instance of the hypotheses of `C82_history` and `C82_history_ends`: history four of the ball of embers
has two flights, and it ends with any fuel above two. -/
example :
    (∃ b, (emberProblem .surfaceTracking).source.sample 5 = .ok b ∧
      ⨆ n, flightsMade generator 1 (fun _ => emberNodes) (emberProblem .surfaceTracking).world
        .surfaceTracking n emberIn ⟨0, 0, 0⟩ b.direction 1 (Rng.ofSeed b.seed) = 2) ∧
      ∀ fuel, 2 < fuel →
        (∃ states, (emberProblem .surfaceTracking).history fuel 4 = .ok states ∧ states.length ≤ 2) ∨
          ∃ p, Handled (emberProblem .surfaceTracking) fuel 4 p ∧
            StartsInVoid (emberProblem .surfaceTracking).world p := by
  set P := emberProblem .surfaceTracking with hP
  have hw : WellPosed 1 (fun _ => emberNodes) P.world := ember_wellPosed .surfaceTracking
  have hd : Configured P.source.direction := by
    norm_num [hP, emberProblem, Configured, UnitVec]
  have hcell := (ember_cells .surfaceTracking ⟨0, 0, 0⟩).1 (by norm_num)
  have hs : GroupSource 1 P.world P.source := ⟨rfl, ⟨1, rfl, le_rfl, le_rfl⟩, _, hcell, by simp [emberIn]⟩
  obtain ⟨states, h1, h2, -⟩ := ember_four
  obtain ⟨b, c, g, k1, k2, k3, k4⟩ := C82_history hw hs hd h1
  cases k3
  cases firstCell_unique k2 hcell
  rw [h2] at k4
  refine ⟨⟨b, k1, by exact_mod_cast k4.symm⟩, fun fuel hf => ?_⟩
  refine C82_history_ends hw hs hd (N := 2) (fun b' c g e1 e2 e3 n => ?_) hf
  rw [k1] at e1
  cases e1
  cases e3
  cases firstCell_unique e2 hcell
  rw [k4]
  exact le_iSup (fun n => flightsMade generator 1 (fun _ => emberNodes) P.world P.method n emberIn
    P.source.position b.direction 1 (Rng.ofSeed b.seed)) n

end Minimc.Props
