import Verif.Lemmas.ChainFollows
import Verif.Props.TransportEquation
import Mathlib.Analysis.Complex.ExponentialBounds

/-! # Properties: neutrons that multiply (C78) -/

namespace Minimc.Props

open Classical Spec MeasureTheory ProbabilityTheory
open scoped ENNReal

/-- **C78** What the current estimator counts in a history is the score of the game with fission that is
played with the generators of the source particle and of its descendants. -/
theorem C78_history {G : ℕ} {nodes : Nuclide → List MgNode} {P : Problem}
    (hw : WellPosed G nodes P.world) (hs : GroupSource G P.world P.source)
    (hd : Configured P.source.direction) {fuel e : ℕ} {states : List Particle}
    (h : P.history fuel e = .ok states) (surface : SurfaceObj) (bins : ParticleBins) (i : ℕ) :
    ∃ b c g, P.source.sample (P.seed + e) = .ok b ∧ FirstCell P.world P.source.position c ∧
      P.source.energy = .group g ∧
      (crossings surface bins states i : ℝ≥0∞) =
        ⨆ n, chainScore generator G nodes P.world P.method (currentHit surface bins i) n c
          P.source.position b.direction g (Rng.ofSeed b.seed) := by
  obtain ⟨b, b1, b2, b3, b4, b5, _⟩ := C51_source_particle P.source hd (P.seed + e)
  obtain ⟨g, g1, g2, g3⟩ := hs.group
  obtain ⟨c, hc, hm'⟩ := hs.place
  refine ⟨b, c, g, b1, hc, g1, ?_⟩
  unfold Problem.history at h
  rw [b1] at h
  simp only [bind, Except.bind] at h
  cases hlog : processBank (transport P.method fuel P.world) P.perturbations fuel
      [Particle.ofBorn b] with
  | error e => rw [hlog] at h; cases h
  | ok log =>
    rw [hlog] at h
    simp only [Except.ok.injEq] at h
    subst h
    obtain ⟨k0, N, k1, k2⟩ := bank_chain hw (currentHit surface bins i) fuel hlog (by
      intro p hp
      rw [List.mem_singleton] at hp
      subst hp
      exact ready_ofBorn (b4.trans hs.type) ⟨g, b3.trans g1, g2, g3⟩)
    rw [← sum_currentHit k0]
    have hsc : ∀ n, partScore G nodes P.world P.method (currentHit surface bins i) n
        (Particle.ofBorn b) = chainScore generator G nodes P.world P.method
          (currentHit surface bins i) n c P.source.position b.direction g (Rng.ofSeed b.seed) := by
      intro n
      unfold partScore fresh Particle.ofBorn
      dsimp only
      rw [b2, cellAt_of_first hc, b3, g1]
      rfl
    simp only [← hsc]
    simp only [List.map_singleton, List.sum_singleton] at k1
    refine le_antisymm (le_iSup_of_le N (k1 N le_rfl).ge) (iSup_le fun n => ?_)
    rw [← k1 (max n N) (le_max_right _ _), hsc, hsc]
    exact chainScore_monotone _ _ _ _ _ (le_max_left _ _)

/-- **C78** If the numbers are independent, the mean score of `n + 1` rounds follows from that of `n`
rounds: scattering and fission along the flight and passage through the surface, all attenuated. -/
theorem C78_rounds {G : ℕ} {nodes : Nuclide → List MgNode} {w : World} (hw : WellPosed G nodes w)
    (method : Method) {hit : SurfaceObj → Direction → ℕ → ℝ≥0∞}
    (hh : ∀ s g, Measurable fun d => hit s d g) {c : Cell} (hc : c ∈ w.cells) (x : Point)
    (d : Direction) {g : ℕ} (h1 : 1 ≤ g) (h2 : g ≤ G) :
    chainMean G nodes w method hit 0 c x d g = 0 ∧
    ∀ n, chainMean G nodes w method hit (n + 1) c x d g =
      transported G nodes w hit (chainMean G nodes w method hit n) c x d g +
        bred G nodes w (chainMean G nodes w method hit n) c x d g :=
  ⟨by simp [chainMean, chainScore], fun n => chainMean_succ hw method hh n hc x d h1 h2⟩

/-- **C78** The mean score of a neutron and its descendants satisfies the integral transport equation
with fission. -/
theorem C78_equation {G : ℕ} {nodes : Nuclide → List MgNode} {w : World} (hw : WellPosed G nodes w)
    (method : Method) {hit : SurfaceObj → Direction → ℕ → ℝ≥0∞}
    (hh : ∀ s g, Measurable fun d => hit s d g) {c : Cell} (hc : c ∈ w.cells) (x : Point)
    (d : Direction) {g : ℕ} (h1 : 1 ≤ g) (h2 : g ≤ G) :
    meanChain G nodes w method hit c x d g =
      transported G nodes w hit (meanChain G nodes w method hit) c x d g +
        bred G nodes w (meanChain G nodes w method hit) c x d g := by
  have hfun : meanChain G nodes w method hit = fun c x d g =>
      ⨆ n, chainMean G nodes w method hit n c x d g := by
    funext c x d g
    exact meanChain_eq hh c x d g
  rw [hfun]
  dsimp only
  have hmono : Monotone fun n => chainMean G nodes w method hit n c x d g :=
    chainMean_monotone c x d g
  have hmono' : Monotone fun n => chainMean G nodes w method hit n :=
    fun m n hmn c x d g => chainMean_monotone c x d g hmn
  rw [transported_iSup (E := chainMean G nodes w method hit)
      (fun n c g => measurable_chainMean hh n c g) hmono',
    bred_iSup (E := chainMean G nodes w method hit)
      (fun n c g => measurable_chainMean hh n c g) hmono',
    ENNReal.iSup_add_iSup_of_monotone, ← hmono.iSup_nat_add 1]
  · exact iSup_congr fun n => chainMean_succ hw method hh n hc x d h1 h2
  · intro a b h
    exact transported_mono (fun c _ x d g _ _ => hmono' h c x d g) hc x d h1 h2
  · intro a b h
    exact bred_mono (fun c _ x d g _ _ => hmono' h c x d g) c x d g

/-- **C78** It is the smallest solution. -/
theorem C78_smallest {G : ℕ} {nodes : Nuclide → List MgNode} {w : World} (hw : WellPosed G nodes w)
    (method : Method) {hit : SurfaceObj → Direction → ℕ → ℝ≥0∞}
    (hh : ∀ s g, Measurable fun d => hit s d g) {E : Cell → Point → Direction → ℕ → ℝ≥0∞}
    (hE : ∀ c ∈ w.cells, ∀ x d g, 1 ≤ g → g ≤ G →
      transported G nodes w hit E c x d g + bred G nodes w E c x d g ≤ E c x d g)
    {c : Cell} (hc : c ∈ w.cells) (x : Point) (d : Direction) {g : ℕ} (h1 : 1 ≤ g) (h2 : g ≤ G) :
    meanChain G nodes w method hit c x d g ≤ E c x d g := by
  rw [meanChain_eq hh]
  refine iSup_le fun n => ?_
  induction n generalizing c x d g with
  | zero => simp [chainMean, chainScore]
  | succ n ih =>
    rw [chainMean_succ hw method hh n hc x d h1 h2]
    refine le_trans (add_le_add ?_ ?_) (hE c hc x d g h1 h2)
    · exact transported_mono (fun c hc x d g h1 h2 => ih hc x d h1 h2) hc x d h1 h2
    · exact bred_mono (fun c hc x d g h1 h2 => ih hc x d h1 h2) c x d g

/-- **C78** The mean score does not depend on the method of tracking. -/
theorem C78_methods {G : ℕ} {nodes : Nuclide → List MgNode} {w : World} (hw : WellPosed G nodes w)
    (method method' : Method) {hit : SurfaceObj → Direction → ℕ → ℝ≥0∞}
    (hh : ∀ s g, Measurable fun d => hit s d g) {c : Cell} (hc : c ∈ w.cells) (x : Point)
    (d : Direction) {g : ℕ} (h1 : 1 ≤ g) (h2 : g ≤ G) :
    meanChain G nodes w method hit c x d g = meanChain G nodes w method' hit c x d g :=
  le_antisymm
    (C78_smallest hw method hh
      (fun _ hc x d _ h1 h2 => (C78_equation hw method' hh hc x d h1 h2).ge) hc x d h1 h2)
    (C78_smallest hw method' hh
      (fun _ hc x d _ h1 h2 => (C78_equation hw method hh hc x d h1 h2).ge) hc x d h1 h2)

/-- **C78** Without fission it is the mean score of the neutron alone. -/
theorem C78_without_fission {G : ℕ} {nodes : Nuclide → List MgNode} {w : World}
    (hw : WellPosed G nodes w) (hf : NoFission G nodes w) (method : Method)
    {hit : SurfaceObj → Direction → ℕ → ℝ≥0∞} (hh : ∀ s g, Measurable fun d => hit s d g) {c : Cell}
    (hc : c ∈ w.cells) (x : Point) (d : Direction) {g : ℕ} (h1 : 1 ≤ g) (h2 : g ≤ G) :
    meanChain G nodes w method hit c x d g = meanScore G nodes w method hit c x d g := by
  have hzero : ∀ E : Cell → Point → Direction → ℕ → ℝ≥0∞, ∀ c ∈ w.cells, ∀ x d g, 1 ≤ g → g ≤ G →
      bred G nodes w E c x d g = 0 := by
    intro E c hc x d g h1 h2
    cases hm : c.material with
    | none => exact bred_none hm
    | some m =>
      have hrate : ∀ g', fissionRate G nodes m g g' = 0 := by
        intro g'
        unfold fissionRate
        rw [List.map_congr_left (g := fun _ => (0 : ℝ)) fun e he => by
          rw [hf c hc m hm e he g h1 h2]; ring]
        simp
      rw [bred_some hm]
      simp [fissionEmission, hrate]
  refine le_antisymm (C78_smallest hw method hh (fun c hc x d g h1 h2 => ?_) hc x d h1 h2)
    (C77_smallest hw method hh (fun c hc x d g h1 h2 => ?_) hc x d h1 h2)
  · rw [hzero _ c hc x d g h1 h2, add_zero]
    exact (C77_equation hw method hh hc x d h1 h2).ge
  · have := C78_equation hw method hh hc x d h1 h2
    rw [hzero _ c hc x d g h1 h2, add_zero] at this
    exact this.ge

theorem fissionRate_nonneg {G : ℕ} {nodes : Nuclide → List MgNode} {m : Material}
    (hd : 0 ≤ m.numberDensity) (hf : ∀ e ∈ m.afracs, 0 ≤ e.2)
    (hN : ∀ e ∈ m.afracs, NonnegNodes (nodes e.1)) (g g' : ℕ) : 0 ≤ fissionRate G nodes m g g' := by
  refine mul_nonneg hd (List.sum_nonneg ?_)
  intro x hx
  obtain ⟨e, he, rfl⟩ := List.mem_map.1 hx
  have hchi := chiTable_nonneg (hN e he)
  exact mul_nonneg (hf e he) (mul_nonneg
    (mul_nonneg (specXS_nonneg' (hN e he) G .fission g) (entry1_nonneg' (nubarTable_nonneg (hN e he)) g))
    (div_nonneg (entry2_nonneg hchi G g g') (List.sum_nonneg (colEntries_nonneg hchi G g))))

/-- **C78** If a collision leaves at most one neutron on average, and a crossing scores at most one, and
only if it takes the neutron out of the material, then the mean score of the neutron and its
descendants is at most one.  `S` are places where that is so and which neutrons do not leave. -/
theorem C78_at_most_one {G : ℕ} {nodes : Nuclide → List MgNode} {w : World} (hw : WellPosed G nodes w)
    (method : Method) {hit : SurfaceObj → Direction → ℕ → ℝ≥0∞}
    (hh : ∀ s g, Measurable fun d => hit s d g) {S : Cell → Point → Prop}
    (hk : ∀ c ∈ w.cells, ∀ m, c.material = some m → ∀ g, 1 ≤ g → g ≤ G →
      ∑ g' ∈ Finset.Icc 1 G, (transferRate G nodes m g g' + fissionRate G nodes m g g') ≤
        macroscopic G nodes g m)
    (hstay : ∀ c ∈ w.cells, c.material ≠ none → ∀ x d (s : ℝ), S c x → UnitVec d → 0 < s →
      (s : WithTop ℝ) < ahead c x d → S c (along x d s) ∧
        ∀ c', cellAt w (along x d s) = some c' → S c' (along x d s))
    (hnext : ∀ c ∈ w.cells, c.material ≠ none → ∀ x d, S c x → UnitVec d → ahead c x d ≠ ⊤ → ∀ s c',
      faced c x d = some s → cellAt w (beyond c x d) = some c' → S c' (beyond c x d) ∧
        ∀ g, hit s d g ≤ 1 ∧ (hit s d g ≠ 0 → c'.material = none))
    {c : Cell} (hc : c ∈ w.cells) {x : Point} (hx : S c x) {d : Direction} (hd : UnitVec d) {g : ℕ}
    (h1 : 1 ≤ g) (h2 : g ≤ G) : meanChain G nodes w method hit c x d g ≤ 1 := by
  set E : Cell → Point → Direction → ℕ → ℝ≥0∞ := fun c x d _ =>
    if S c x ∧ UnitVec d then (if c.material = none then 0 else 1) else ⊤ with hE
  refine (C78_smallest hw method hh (E := E) ?_ hc x d h1 h2).trans ?_
  swap
  · simp only [hE, if_pos (And.intro hx hd)]
    split_ifs <;> simp
  clear hc hx hd h1 h2 c x d g
  intro c hc x d g h1 h2
  by_cases hS : S c x ∧ UnitVec d
  swap
  · simp [hE, hS]
  obtain ⟨hx, hd⟩ := hS
  cases hm : c.material with
  | none => simp [transported, bred, hm]
  | some m =>
    have hmn : c.material ≠ none := by rw [hm]; simp
    have hpos : 0 < macroscopic G nodes g m :=
      mul_pos (hw.density c hc m hm) (group_shares hw hc hm h1 h2)
    have hEc : E c x d g = 1 := by simp [hE, hx, hd, hm]
    have hden := (hw.density c hc m hm).le
    have hfr : ∀ e ∈ m.afracs, 0 ≤ e.2 := fun e he => (hw.data c hc m hm e he).1.le
    have hN : ∀ e ∈ m.afracs, NonnegNodes (nodes e.1) := fun e he => by
      obtain ⟨_, _, _, _, hN, _⟩ := hw.data c hc m hm e he
      exact hN
    rw [hEc, transported_some hm, bred_some hm]
    have hone := lintegral_round c method hpos (t := ahead c x d) (fun _ h => ahead_pos h) 1 fun _ => 1
    have hl : ∫⁻ u, (if FliesTo method (ahead c x d) (-Real.log (1 - u) / macroscopic G nodes g m) then
        (1 : ℝ≥0∞) else 1) ∂uniform = 1 := by
      simp
    rw [hl] at hone
    rw [hone, add_right_comm]
    refine add_le_add ?_ ?_
    · -- what is emitted along the way
      have hbound : ∀ s ∈ {s : ℝ | 0 < s ∧ (s : WithTop ℝ) < ahead c x d},
          emission G nodes m g (E c (along x d s)) ≤
              ∑ g' ∈ Finset.Icc 1 G, ENNReal.ofReal (transferRate G nodes m g g') ∧
            fissionEmission G nodes w m g E (along x d s) ≤
              ∑ g' ∈ Finset.Icc 1 G, ENNReal.ofReal (fissionRate G nodes m g g') := by
        intro s hs
        obtain ⟨s1, s2⟩ := hstay c hc hmn x d s hx hd hs.1 hs.2
        constructor
        · unfold emission
          refine Finset.sum_le_sum fun g' _ => ?_
          conv_rhs => rw [← mul_one (ENNReal.ofReal _)]
          refine mul_le_mul_right (sphereMean_le fun d' hd' => ?_) _
          simp [hE, s1, hd', hm]
        · unfold fissionEmission
          refine Finset.sum_le_sum fun g' _ => ?_
          conv_rhs => rw [← mul_one (ENNReal.ofReal _)]
          refine mul_le_mul_right (sphereMean_le fun d' hd' => ?_) _
          cases hcl : cellAt w (along x d s) with
          | none => simp
          | some c' =>
            simp only [Option.elim_some, hE, s2 c' hcl, hd', and_self, if_true]
            split_ifs <;> simp
      have hrates : ∑ g' ∈ Finset.Icc 1 G, ENNReal.ofReal (transferRate G nodes m g g') +
          ∑ g' ∈ Finset.Icc 1 G, ENNReal.ofReal (fissionRate G nodes m g g') ≤
            ENNReal.ofReal (macroscopic G nodes g m) := by
        rw [← Finset.sum_add_distrib, Finset.sum_congr rfl fun g' _ =>
          (ENNReal.ofReal_add (transferRate_nonneg hden hfr hN g g')
            (fissionRate_nonneg hden hfr hN g g')).symm,
          ← ENNReal.ofReal_sum_of_nonneg fun g' _ =>
            add_nonneg (transferRate_nonneg hden hfr hN g g') (fissionRate_nonneg hden hfr hN g g')]
        exact ENNReal.ofReal_le_ofReal (hk c hc m hm g h1 h2)
      have hmeas : Measurable fun s : ℝ => ENNReal.ofReal (Real.exp (-(macroscopic G nodes g m * s))) := by
        fun_prop
      calc _ ≤ (∫⁻ s in {s : ℝ | 0 < s ∧ (s : WithTop ℝ) < ahead c x d},
              ENNReal.ofReal (Real.exp (-(macroscopic G nodes g m * s))) *
                ∑ g' ∈ Finset.Icc 1 G, ENNReal.ofReal (transferRate G nodes m g g')) +
            ∫⁻ s in {s : ℝ | 0 < s ∧ (s : WithTop ℝ) < ahead c x d},
              ENNReal.ofReal (Real.exp (-(macroscopic G nodes g m * s))) *
                ∑ g' ∈ Finset.Icc 1 G, ENNReal.ofReal (fissionRate G nodes m g g') := by
              refine add_le_add (setLIntegral_mono' (measurableSet_between _) fun s hs => ?_)
                (setLIntegral_mono' (measurableSet_between _) fun s hs => ?_)
              · exact mul_le_mul_right (hbound s hs).1 _
              · exact mul_le_mul_right (hbound s hs).2 _
        _ ≤ _ := by
              rw [← lintegral_add_left (hmeas.mul_const _)]
              refine lintegral_mono fun s => ?_
              dsimp only
              rw [← mul_add, mul_one, ENNReal.ofReal_mul hpos.le, mul_comm]
              exact mul_le_mul_left hrates _
    · split_ifs with ht
      · exact le_rfl
      · refine mul_le_mul_right ?_ _
        unfold crossed
        cases hfc : faced c x d with
        | none => simp
        | some s =>
          cases hcl : cellAt w (beyond c x d) with
          | none => simp
          | some c' =>
            obtain ⟨k1, k2⟩ := hnext c hc hmn x d hx hd ht s c' hfc hcl
            obtain ⟨k2, k3⟩ := k2 g
            simp only [Option.elim_some, hE, k1, hd, and_self, if_true]
            by_cases hcm : c'.material = none
            · simpa [hcm] using k2
            · have : hit s d g = 0 := by
                by_contra h
                exact hcm (k3 h)
              simp [hcm, this]

/-- **C78** With independent numbers for each history, the average score almost surely tends to the mean
score, if that is finite. -/
theorem C78_converges {G : ℕ} {nodes : Nuclide → List MgNode} {w : World} {method : Method}
    {hit : SurfaceObj → Direction → ℕ → ℝ≥0∞} (hh : ∀ s g, Measurable fun d => hit s d g) {c : Cell}
    {x : Point} {d : Direction} {g : ℕ} (hfin : meanChain G nodes w method hit c x d g ≠ ⊤) :
    ∀ᵐ histories ∂(Measure.infinitePi fun _ : ℕ => uniforms),
      Filter.Tendsto
        (fun n : ℕ => (∑ e ∈ Finset.range n,
          (⨆ k, chainScore endless G nodes w method hit k c x d g (histories e)).toReal) / n)
        Filter.atTop (nhds (meanChain G nodes w method hit c x d g).toReal) :=
  average_converges (f := fun us => ⨆ k, chainScore endless G nodes w method hit k c x d g us)
    (Measurable.iSup fun k => measurable_chainScore_us _ _ _ _ hh k c x d g) hfin

/-! ### Instance: a ball of embers -/

/-- Two thirds of the collisions are fissions, which make one and a half neutrons on average. -/
noncomputable def emberNodes : List MgNode := [.fission (some [3 / 2]) (some [1]) [2 / 3], .capture [1 / 3]]

theorem emberNodes_ok : ∃ m, Multigroup.create 1 emberNodes = .ok m := by
  simp only [Multigroup.create, emberNodes, Multigroup.findNubar, Multigroup.findChi,
    Multigroup.findScatter, Multigroup.optionally, Multigroup.createReactions, Multigroup.reactionXS,
    Multigroup.oneDimensional, Multigroup.normalized_ok (G := 1) (flat := [1]) rfl, bind, Except.bind]
  exact ⟨_, rfl⟩

noncomputable def emberNuclide : Nuclide where
  id := 1
  name := "e"
  xs := fun _ => some (.multigroup emberNodes_ok.choose)

noncomputable def ember : Material := ⟨"ember", [(emberNuclide, 1)], 1⟩

noncomputable def emberIn : Cell := ⟨"in", [(ball 1 1, true)], some ember, .constant 300⟩

/-- A beam from the centre of a ball in which neutrons cause fissions. -/
noncomputable def emberProblem (method : Method) : Problem :=
  { slabProblem 1000 8 with
    world := ⟨[ball 1 1], [emberNuclide], [ember], .constant 300, [emberIn, fogOut]⟩
    method := method
    source := ⟨⟨0, 0, 0⟩, .constant ⟨1, 0, 0⟩, .group 1, .neutron⟩ }

theorem ember_cells (method : Method) (x : Point) :
    (x.x ^ 2 + x.y ^ 2 + x.z ^ 2 < 1 → FirstCell (emberProblem method).world x emberIn) ∧
    (1 ≤ x.x ^ 2 + x.y ^ 2 + x.z ^ 2 → FirstCell (emberProblem method).world x fogOut) := by
  have b1 := ball_contains 1 1 x
  norm_num at b1
  refine ⟨fun h => ⟨[], [fogOut], rfl, ?_, by simp⟩, fun h => ⟨[emberIn], [], rfl, ?_, ?_⟩⟩
  · simp [InCell, emberIn, b1, h]
  · simp [InCell, fogOut, ← Bool.not_eq_true, b1, h]
  · simp [InCell, emberIn, ← Bool.not_eq_true, b1, h]

theorem ember_total : specTotal 1 emberNodes 1 = 1 := by
  change (1 / 3 : ℝ) + 0 + 2 / 3 = 1
  norm_num

theorem ember_nonneg : NonnegNodes emberNodes := by
  intro n hn
  simp only [emberNodes, List.mem_cons, List.not_mem_nil, or_false] at hn
  rcases hn with rfl | rfl
  · refine ⟨?_, ?_, ?_⟩
    · intro x hx
      rw [List.mem_singleton.1 hx]
      norm_num
    · rintro l ⟨⟩ x hx
      rw [List.mem_singleton.1 hx]
      norm_num
    · rintro l ⟨⟩ x hx
      rw [List.mem_singleton.1 hx]
      norm_num
  · intro x hx
    rw [List.mem_singleton.1 hx]
    norm_num

theorem ember_wellPosed (method : Method) :
    WellPosed 1 (fun _ => emberNodes) (emberProblem method).world := by
  have hcm : ∀ c ∈ (emberProblem method).world.cells, ∀ m, c.material = some m →
      m = ember ∧ c.surfaceSenses ≠ [] := by
    intro c hc m hm
    simp only [emberProblem, List.mem_cons, List.not_mem_nil, or_false] at hc
    rcases hc with rfl | rfl
    · exact ⟨by simpa [emberIn] using hm.symm, by simp [emberIn]⟩
    · cases hm
  refine ⟨?_, ?_, ?_, ?_, ?_⟩
  · intro x
    obtain ⟨h1, h2⟩ := ember_cells method x
    have key : ∃ c, FirstCell (emberProblem method).world x c := by
      rcases lt_or_ge (x.x ^ 2 + x.y ^ 2 + x.z ^ 2) 1 with h | h
      · exact ⟨_, h1 h⟩
      · exact ⟨_, h2 h⟩
    obtain ⟨c, l, r, e, hin, -⟩ := key
    exact ⟨c, by rw [e]; simp, hin⟩
  · intro c hc hm
    obtain ⟨m, hm⟩ := Option.ne_none_iff_exists'.1 hm
    exact (hcm c hc m hm).2
  · intro c hc m hm
    rw [(hcm c hc m hm).1]
    exact one_pos
  · intro c hc m hm e he
    rw [(hcm c hc m hm).1] at he
    simp only [ember, List.mem_singleton] at he
    subst he
    exact ⟨one_pos, emberNodes_ok.choose, rfl, emberNodes_ok.choose_spec, ember_nonneg,
      fun g _ => ⟨[3 / 2], [1], rfl, rfl⟩⟩
  · intro c hc m hm g h1 h2
    rw [(hcm c hc m hm).1]
    obtain rfl : g = 1 := by omega
    refine ⟨(emberNuclide, 1), by simp [ember], ?_⟩
    rw [ember_total]
    norm_num

theorem ember_rate : macroscopic 1 (fun _ => emberNodes) 1 ember = 1 := by
  simp only [macroscopic, ember, List.map_cons, List.map_nil, List.sum_cons, List.sum_nil, ember_total]
  norm_num

theorem ember_ahead (x : Point) (d : Direction) :
    ahead emberIn x d = (ball 1 1).shape.distance x d := by
  simp [ahead, emberIn]

/-- Each collision leaves one neutron on average. -/
theorem ember_multiplies : ∑ g' ∈ Finset.Icc 1 1, (transferRate 1 (fun _ => emberNodes) ember 1 g' +
    fissionRate 1 (fun _ => emberNodes) ember 1 g') = 1 := by
  have e1 : specXS 1 emberNodes .fission 1 = 2 / 3 := rfl
  have e2 : entry1 (nubarTable emberNodes) 1 = 3 / 2 := rfl
  have e3 : entry2 1 (chiTable emberNodes) 1 1 = 1 := rfl
  have e4 : colSum 1 (chiTable emberNodes) 1 = 1 := by
    simp [colSum, List.range', e3]
  have e5 : entry2 1 (scatterTable emberNodes) 1 1 = 0 := by
    simp [scatterTable, emberNodes, entry2]
  simp only [Finset.Icc_self, Finset.sum_singleton, transferRate, fissionRate, ember, List.map_cons,
    List.map_nil, List.sum_cons, List.sum_nil, e1, e2, e3, e4, e5]
  norm_num

/-- Instance of the hypotheses of C78: the mean number of neutrons that leave a ball of embers satisfies
the transport equation with fission and is at most one, and the average over endlessly many histories
tends to it. -/
example (method : Method) :
    (∀ x d, meanChain 1 (fun _ => emberNodes) (emberProblem method).world method
        (currentHit (ball 1 1) oneBin 0) emberIn x d 1 =
      transported 1 (fun _ => emberNodes) (emberProblem method).world (currentHit (ball 1 1) oneBin 0)
        (meanChain 1 (fun _ => emberNodes) (emberProblem method).world method
          (currentHit (ball 1 1) oneBin 0)) emberIn x d 1 +
      bred 1 (fun _ => emberNodes) (emberProblem method).world
        (meanChain 1 (fun _ => emberNodes) (emberProblem method).world method
          (currentHit (ball 1 1) oneBin 0)) emberIn x d 1) ∧
    meanChain 1 (fun _ => emberNodes) (emberProblem method).world method
      (currentHit (ball 1 1) oneBin 0) emberIn ⟨0, 0, 0⟩ ⟨1, 0, 0⟩ 1 ≤ 1 ∧
    ∀ᵐ histories ∂(Measure.infinitePi fun _ : ℕ => uniforms),
      Filter.Tendsto (fun n : ℕ => (∑ e ∈ Finset.range n,
        (⨆ k, chainScore endless 1 (fun _ => emberNodes) (emberProblem method).world method
          (currentHit (ball 1 1) oneBin 0) k emberIn ⟨0, 0, 0⟩ ⟨1, 0, 0⟩ 1 (histories e)).toReal) / n)
        Filter.atTop (nhds (meanChain 1 (fun _ => emberNodes) (emberProblem method).world method
          (currentHit (ball 1 1) oneBin 0) emberIn ⟨0, 0, 0⟩ ⟨1, 0, 0⟩ 1).toReal) := by
  have hw := ember_wellPosed method
  have hh := measurable_currentHit (ball 1 1) oneBin 0
  have hc : emberIn ∈ (emberProblem method).world.cells := by simp [emberProblem]
  have hle := C78_at_most_one hw method hh
    (S := fun c x => c = emberIn → x.x ^ 2 + x.y ^ 2 + x.z ^ 2 < 1) (by
      intro c hc m hm g h1 h2
      obtain rfl : g = 1 := by omega
      simp only [emberProblem, List.mem_cons, List.not_mem_nil, or_false] at hc
      rcases hc with rfl | rfl
      · cases hm
        rw [ember_multiplies, ember_rate]
      · cases hm) (by
      intro c hc hm x d s hx hd hs hlt
      simp only [emberProblem, List.mem_cons, List.not_mem_nil, or_false] at hc
      rcases hc with rfl | rfl
      · rw [ember_ahead] at hlt
        have := fog_stays (hx rfl) hd hs hlt
        exact ⟨fun _ => this, fun _ _ _ => this⟩
      · exact absurd rfl hm) (by
      intro c hc hm x d hx hd ht s c' _ hc'
      simp only [emberProblem, List.mem_cons, List.not_mem_nil, or_false] at hc
      rcases hc with rfl | rfl
      · obtain ⟨t, ht⟩ := WithTop.ne_top_iff_exists.1 ht
        rw [ember_ahead] at ht
        have hb : beyond emberIn x d = along x d (t + 10 / 2 ^ 52) := by
          unfold beyond
          rw [ember_ahead, ← ht]
          rfl
        have hout := fog_leaves (hx rfl) hd ht.symm
        have := cellAt_of_first ((ember_cells method _).2 hout)
        rw [hb, this] at hc'
        cases hc'
        refine ⟨fun h => ?_, fun g => ⟨?_, fun _ => rfl⟩⟩
        · have := congrArg Cell.material h
          cases this
        · unfold currentHit
          split_ifs <;> simp
      · exact absurd rfl hm) hc (x := ⟨0, 0, 0⟩) (fun _ => by norm_num) (d := ⟨1, 0, 0⟩)
      (by norm_num [UnitVec]) (g := 1) le_rfl le_rfl
  exact ⟨fun x d => C78_equation hw method hh hc x d le_rfl le_rfl, hle,
    C78_converges hh (ne_top_of_le_ne_top ENNReal.one_ne_top hle)⟩

/-- Inside the ball the sphere is at most two away. -/
theorem ember_near {x : Point} {d : Direction} (hx : x.x ^ 2 + x.y ^ 2 + x.z ^ 2 < 1) (hd : UnitVec d) :
    ∃ t : ℝ, (ball 1 1).shape.distance x d = (t : WithTop ℝ) ∧ t ≤ 2 := by
  have hle : (ball 1 1).shape.distance x d ≤ ((2 : ℝ) : WithTop ℝ) := by
    by_contra hcon
    have := fog_stays hx hd two_pos (not_le.1 hcon)
    simp only [along] at this
    unfold UnitVec at hd
    have hcs : (x.x * d.x + x.y * d.y + x.z * d.z) ^ 2 ≤ x.x ^ 2 + x.y ^ 2 + x.z ^ 2 := by
      have h1 := sq_nonneg (x.x * d.y - x.y * d.x)
      have h2 := sq_nonneg (x.x * d.z - x.z * d.x)
      have h3 := sq_nonneg (x.y * d.z - x.z * d.y)
      have h4 : (x.x ^ 2 + x.y ^ 2 + x.z ^ 2) * (d.x ^ 2 + d.y ^ 2 + d.z ^ 2) =
          x.x ^ 2 + x.y ^ 2 + x.z ^ 2 := by rw [hd, mul_one]
      linarith
    have hq : -1 < x.x * d.x + x.y * d.y + x.z * d.z := by
      by_contra hq
      rw [not_lt] at hq
      nlinarith
    nlinarith
  obtain ⟨t, ht⟩ := WithTop.ne_top_iff_exists.1 (ne_top_of_le_ne_top WithTop.coe_ne_top hle)
  rw [← ht] at hle
  exact ⟨t, ht.symm, WithTop.coe_le_coe.1 hle⟩

theorem ember_numbers :
    (Rng.canonical 241355).1 < 1 / 100 ∧ 0 < (Rng.canonical 241355).1 ∧
    1 / 2 < drawn (Rng.next^[2] 241355) 0 ∧ drawn (Rng.next^[2] 241355) 0 < 1 ∧
    1 / 2 < drawn (Rng.next^[2] 241355) 1 ∧ drawn (Rng.next^[2] 241355) 1 < 1 ∧
    1 / 4 < drawn (Rng.next^[2] 241355) 2 ∧ drawn (Rng.next^[2] 241355) 2 < 1 / 2 ∧
    0 < drawn (Rng.next^[2] 241355) 3 ∧ drawn (Rng.next^[2] 241355) 3 < 1 ∧
    0 < drawn (Rng.next^[2] 241355) 4 ∧ drawn (Rng.next^[2] 241355) 4 < 1 ∧
    97 / 100 < (Rng.canonical 1199504401).1 ∧ (Rng.canonical 1199504401).1 < 1 := by
  have a1 : Rng.next 241355 = 913028970 := rfl
  have a2 : Rng.next 913028970 = 14523489 := rfl
  have a3 : Rng.next 14523489 = 983668597 := rfl
  have a4 : Rng.next 983668597 = 1803410617 := rfl
  have a5 : Rng.next 1803410617 = 2036778415 := rfl
  have a6 : Rng.next 2036778415 = 1234543511 := rfl
  have a7 : Rng.next 1234543511 = 2126098878 := rfl
  have a8 : Rng.next 2126098878 = 675449808 := rfl
  have a9 : Rng.next 675449808 = 1540953214 := rfl
  have a10 : Rng.next 1540953214 = 961511855 := rfl
  have a11 : Rng.next 961511855 = 1722173741 := rfl
  have a12 : Rng.next 1722173741 = 1956676441 := rfl
  have a15 : Rng.next 1199504401 = 822850257 := rfl
  have a16 : Rng.next 822850257 = 2094704382 := rfl
  simp only [drawn, Function.iterate_succ, Function.iterate_zero, Function.comp_apply, id_eq,
    Nat.mul_zero, Nat.mul_one, Rng.canonical, Rng.range, a1, a2, a3, a4, a5, a6, a7, a8, a9, a10, a11,
    a12, a15, a16]
  norm_num

/-- The collision of the neutron with these numbers is a fission that makes one neutron. -/
theorem ember_event (next start : Direction → ℕ → ℕ → ℝ≥0∞) :
    afterEvent generator 1 (fun _ => emberNodes) ember 1 next start (Rng.next^[2] 241355) =
      start (directionFrom (drawn (Rng.next^[2] 241355) 4) (drawn (Rng.next^[2] 241355) 5)) 1
        1199504401 := by
  obtain ⟨-, -, u0, u0', u1, u1', u2, u2', u3, u3', -⟩ := ember_numbers
  have one : ∀ {u : ℝ}, 0 < u → u < 1 → ∀ j, Selected [(1 : ℝ)] (u * [(1 : ℝ)].sum) j ↔ j = 0 := by
    intro u h0 h1 j
    refine ⟨fun h => by have := h.1; simp at this; exact this, fun h => ?_⟩
    subst h
    simp [Selected, h0.le, h1]
  unfold afterEvent
  have e1 : (ember.afracs.map fun e => e.2 * specTotal 1 emberNodes 1) = [1] := by
    simp [ember, ember_total]
  have e2 : [specXS 1 emberNodes .capture 1, specXS 1 emberNodes .scatter 1,
      specXS 1 emberNodes .fission 1] = [1 / 3, 0, 2 / 3] := rfl
  have e3 : colEntries 1 (chiTable emberNodes) 1 = [1] := rfl
  have e4 : entry1 (nubarTable emberNodes) 1 = 3 / 2 := rfl
  rw [e1]
  refine (byWeight_eq (i := 0) (one (by rw [generator_numbers]; linarith)
    (by rw [generator_numbers]; exact u0')) _).trans ?_
  have e5 : ember.afracs[0]? = some (emberNuclide, 1) := rfl
  rw [e5, Option.elim_some, e2]
  refine (byWeight_eq (i := 2) ?_ _).trans ?_
  · rw [generator_numbers]
    generalize drawn (Rng.next^[2] 241355) 1 = u at u1 u1'
    intro j
    refine ⟨fun h => ?_, fun h => ?_⟩
    · have h1 := h.1
      have h2 := h.2.2
      simp only [List.length_cons, List.length_nil] at h1
      interval_cases j
      · norm_num at h2
        linarith
      · norm_num at h2
        linarith
      · rfl
    · subst h
      refine ⟨by simp, ?_, ?_⟩ <;> norm_num <;> linarith
  rw [if_neg (by decide), if_pos rfl, e3, e4, generator_numbers, generator_rest]
  have hfl : ⌊(3 / 2 : ℝ) + drawn (Rng.next^[2] 241355) 2⌋₊ = 1 := by
    generalize drawn (Rng.next^[2] 241355) 2 = u at u2 u2'
    rw [Nat.floor_eq_iff (by linarith)]
    norm_num
    constructor <;> linarith
  rw [hfl, births]
  have e6 : generator.number (Rng.next^[2 * 3] (Rng.next^[2] 241355)) =
      drawn (Rng.next^[2] 241355) 3 := rfl
  refine (byWeight_eq (i := 0) (one (by rw [e6]; exact u3) (by rw [e6]; exact u3')) _).trans ?_
  rw [births, add_zero, generator_numbers, generator_numbers]
  rfl

/-- Instance of the hypotheses of `C78_history`: in history four the neutron causes a fission, the new
neutron leaves the ball, and it is counted. -/
theorem ember_four :
    ∃ states, (emberProblem .surfaceTracking).history 2 4 = .ok states ∧ states.length = 2 ∧
      ∃ b, (emberProblem .surfaceTracking).source.sample 5 = .ok b ∧
        crossings (ball 1 1) oneBin states 0 = 1 ∧
          ⨆ n, chainScore generator 1 (fun _ => emberNodes) (emberProblem .surfaceTracking).world .surfaceTracking
            (currentHit (ball 1 1) oneBin 0) n emberIn ⟨0, 0, 0⟩ b.direction 1
            (Rng.ofSeed b.seed) = 1 := by
  set P := emberProblem .surfaceTracking with hP
  have hw : WellPosed 1 (fun _ => emberNodes) P.world := ember_wellPosed .surfaceTracking
  have hd : Configured P.source.direction := by
    norm_num [hP, emberProblem, Configured, UnitVec]
  obtain ⟨n1, n2, -, -, -, -, -, -, -, -, n11, n12, n13, n14⟩ := ember_numbers
  have hcell := (ember_cells .surfaceTracking ⟨0, 0, 0⟩).1 (by norm_num)
  have hbound : ∀ s, Bounds s emberIn → s = ball 1 1 := by
    rintro s ⟨k, hk⟩
    simp only [emberIn, List.mem_singleton, Prod.mk.injEq] at hk
    exact hk.1
  have hnear : ∀ {x d t}, (ball 1 1).shape.distance x d = ((t : ℝ) : WithTop ℝ) →
      NearestAhead emberIn x d t := fun {x d t} h =>
    ⟨⟨ball 1 1, ⟨true, by simp [emberIn]⟩, h⟩, fun s hs => by rw [hbound s hs]; exact h.ge⟩
  -- the neutron of the source
  obtain ⟨b, b1, b2, b3, b4, b5, _⟩ := C51_source_particle P.source hd (P.seed + 4)
  have hbd : b.direction = ⟨1, 0, 0⟩ := by
    cases b1
    rfl
  have hbr : Rng.ofSeed b.seed = 241355 := by
    cases b1
    change Rng.ofSeed (Rng.next (Rng.ofSeed 5)) = _
    norm_num [Rng.ofSeed, Rng.next, Rng.modulus, Rng.mult]
  set p : Particle := (Particle.ofBorn b).setPerturbations P.perturbations with hp
  have hpp : p.position = ⟨0, 0, 0⟩ := b2
  have hpd : p.direction = ⟨1, 0, 0⟩ := hbd
  have hpr : p.rng = 241355 := hbr
  have hend : ¬ Ended { p with cell := some emberIn } := by
    simp [Ended, hp, Particle.ofBorn, Particle.setPerturbations]
  have hr : Rng.Valid p.rng := Rng.valid_ofSeed b.seed
  obtain ⟨p', k1, hcase⟩ := step_chain hw (p := { p with cell := some emberIn }) (g := 1) b4 b3 le_rfl
    le_rfl hr (FirstCell.mem hcell).1 rfl (m := ember) rfl .surfaceTracking 2
  have hdist : (ball 1 1).shape.distance p.position p.direction = ((1 : ℝ) : WithTop ℝ) := by
    rw [hpp, hpd, ball_ahead 1 le_rfl one_pos, sub_zero]
  obtain ⟨p'', k2, -, k3⟩ := group_step_reach hw (p := { p with cell := some emberIn }) (g := 1) b4 b3
    le_rfl le_rfl hr (hpp ▸ hcell : FirstCell P.world p.position _) rfl (m := ember) rfl
    (hnear hdist) .surfaceTracking 2
  rw [k1] at k2
  cases k2
  have hshort : -Real.log (1 - (Rng.canonical p.rng).1) / macroscopic 1 (fun _ => emberNodes) 1 ember <
      1 := by
    rw [ember_rate, div_one, hpr, neg_lt, Real.lt_log_iff_exp_lt (by linarith)]
    have : Real.exp (-1) < 1 / 2 := by
      have := Real.exp_one_gt_d9
      rw [Real.exp_neg, inv_eq_one_div]
      exact one_div_lt_one_div_of_lt two_pos (by linarith)
    linarith
  have hncs : ¬ CrossedSurface p' := k3 (by
    change ¬ (1 : ℝ) ≤ _
    exact not_le.2 hshort)
  have hpr' : Rng.next^[2 * drawnBefore .surfaceTracking] ({ p with cell := some emberIn } : Particle).rng =
      Rng.next^[2] 241355 := by
    change Rng.next^[2] p.rng = _
    rw [hpr]
  have hcase' : Ended p' ∧ ∃ new, p'.secondaries = new ∧ (∀ b ∈ new, BornAt 1 p'.position b) ∧
      p'.position = along p.position p.direction
        (-Real.log (1 - (Rng.canonical p.rng).1) / macroscopic 1 (fun _ => emberNodes) 1 ember) ∧
      ∀ start, start (directionFrom (drawn (Rng.next^[2] 241355) 4) (drawn (Rng.next^[2] 241355) 5)) 1
        1199504401 = (new.map (bornScore start)).sum := by
    rcases hcase with ⟨he, new, a1, a2, -, a3⟩ | ⟨-, -, c', g', m', -, -, -, -, -, -, -, -, -, a3⟩
    · rcases a3 with ⟨a3, -⟩ | ⟨-, a4, a3⟩
      · exact absurd a3 hncs
      · refine ⟨he, new, a1, a2, a4, fun start => ?_⟩
        rw [← a3 (fun _ _ _ => 0) start, hpr', ember_event]
    · exfalso
      rcases a3 with a3 | a3
      · exact hncs a3
      · have := a3 (fun _ _ _ => 1) (fun _ _ _ => 0)
        rw [hpr', ember_event] at this
        exact zero_ne_one this
  obtain ⟨he, new, a1, a2, a4, a3⟩ := hcase'
  -- there is one new neutron
  set dir := directionFrom (drawn (Rng.next^[2] 241355) 4) (drawn (Rng.next^[2] 241355) 5) with hdir
  obtain ⟨q, rfl⟩ : ∃ q, new = [q] := by
    have := a3 fun _ _ _ => 1
    rw [show bornScore (fun _ _ _ => (1 : ℝ≥0∞)) = fun _ => 1 from rfl] at this
    simp only [List.map_const', List.sum_replicate, nsmul_eq_mul, mul_one] at this
    exact List.length_eq_one_iff.1 (by exact_mod_cast this.symm)
  have hq : q.direction = dir ∧ Rng.ofSeed q.seed = 1199504401 := by
    have := a3 fun d _ s => if d = dir ∧ s = 1199504401 then 1 else 0
    rw [if_pos ⟨rfl, rfl⟩, List.map_singleton, List.sum_singleton, bornScore] at this
    by_contra hcon
    rw [if_neg hcon] at this
    exact one_ne_zero this
  obtain ⟨q1, q2, g, q3, q4, q5⟩ := a2 q (by simp)
  obtain rfl : g = 1 := by omega
  have hunit : UnitVec q.direction := by
    rw [hq.1]
    exact C02_isotropic.2.1 _ _ n11.le n12.le
  -- the place of the collision
  have hx : p'.position.x ^ 2 + p'.position.y ^ 2 + p'.position.z ^ 2 < 1 := by
    have h0 : 0 < -Real.log (1 - (Rng.canonical p.rng).1) /
        macroscopic 1 (fun _ => emberNodes) 1 ember := by
      rw [ember_rate, div_one, hpr, lt_neg, neg_zero]
      exact Real.log_neg (by linarith) (by linarith)
    rw [a4]
    refine fog_stays (by rw [hpp]; norm_num) (by rw [hpd]; norm_num [UnitVec]) h0 ?_
    rw [hdist]
    exact WithTop.coe_lt_coe.2 hshort
  have hcell' := (ember_cells .surfaceTracking p'.position).1 hx
  set p₂ : Particle := (Particle.ofBorn q).setPerturbations P.perturbations with hp₂
  have hp₂p : p₂.position = p'.position := q1
  have hr₂ : Rng.Valid p₂.rng := Rng.valid_ofSeed q.seed
  have hend₂ : ¬ Ended { p₂ with cell := some emberIn } := by
    simp [Ended, hp₂, Particle.ofBorn, Particle.setPerturbations]
  obtain ⟨t, ht, ht2⟩ := ember_near hx hunit
  obtain ⟨l, l1, l2, -⟩ := group_step_reach hw (p := { p₂ with cell := some emberIn }) (g := 1) q2 q3
    le_rfl le_rfl hr₂ (hp₂p ▸ hcell' : FirstCell P.world p₂.position _) rfl (m := ember) rfl
    (t := t) (hnear (hp₂p ▸ ht : (ball 1 1).shape.distance p₂.position q.direction = _))
    .surfaceTracking 2
  have hlong : 2 < -Real.log (1 - (Rng.canonical p₂.rng).1) /
      macroscopic 1 (fun _ => emberNodes) 1 ember := by
    rw [ember_rate, div_one, show p₂.rng = 1199504401 from hq.2, lt_neg,
      Real.log_lt_iff_lt_exp (by linarith)]
    have h3 := Real.exp_one_lt_three
    have : 1 / 9 < Real.exp (-2) := by
      rw [Real.exp_neg, inv_eq_one_div]
      refine one_div_lt_one_div_of_lt (Real.exp_pos _) ?_
      rw [show (2 : ℝ) = 1 + 1 by norm_num, Real.exp_add]
      have := Real.exp_pos 1
      nlinarith
    linarith
  obtain ⟨m1, m2, ⟨c', m3, m4, m5⟩, -, -, -, -, surf, m6, m7, -⟩ := l2 (ht2.trans hlong.le)
  have hleak : l.event = .leak := by
    refine m5.1 ?_
    have hout := (ember_cells .surfaceTracking l.position).2 (by
      rw [m2]
      exact fog_leaves (x := p₂.position) (d := q.direction) (by rw [hp₂p]; exact hx) hunit
        (by rw [hp₂p]; exact ht))
    rw [firstCell_unique m3 hout]
    rfl
  have hsec : l.secondaries = [] := by
    obtain ⟨l', l1', hcase⟩ := step_chain hw (p := { p₂ with cell := some emberIn }) (g := 1) q2 q3
      le_rfl le_rfl hr₂ (FirstCell.mem hcell').1 rfl (m := ember) rfl .surfaceTracking 2
    rw [l1] at l1'
    cases l1'
    rcases hcase with ⟨-, new, d1, -, -, ⟨-, d2⟩ | ⟨d2, -⟩⟩ | ⟨d1, -⟩
    · rw [d1, d2]
      rfl
    · exact absurd m1 d2
    · exact absurd (.inr (.inr hleak)) d1
  -- the two transports
  have hloop : ∀ {r r' : Particle}, ¬ Ended r → transportStep .surfaceTracking 2 P.world r = .ok r' →
      Ended r' → transportLoop .surfaceTracking 2 P.world 2 r = .ok (r', [r']) := by
    intro r r' h1 h2 h3
    have hna : ¬ r'.isAlive = true := fun hal => (alive_iff r').1 hal h3
    rw [transportLoop, if_pos ((alive_iff _).2 h1), h2]
    simp only [bind, Except.bind]
    rw [transportLoop, if_neg hna]
  have htr : ∀ {r r' : Particle}, FirstCell P.world r.position emberIn →
      ¬ Ended { r with cell := some emberIn } →
      transportStep .surfaceTracking 2 P.world { r with cell := some emberIn } = .ok r' →
      Ended r' → transport P.method 2 P.world r = .ok (r', [r']) := by
    intro r r' h0 h1 h2 h3
    unfold transport
    rw [locate_ok.2 ⟨_, h0, rfl⟩]
    simp only [bind, Except.bind]
    change noexcept (transportLoop .surfaceTracking 2 P.world 2 _) = _
    rw [hloop h1 h2 h3]
    rfl
  have t1 := htr (hpp ▸ hcell : FirstCell P.world p.position _) hend k1 he
  have t2 := htr (hp₂p ▸ hcell' : FirstCell P.world p₂.position _) hend₂ l1 (.inr (.inr hleak))
  have hhist : P.history 2 4 = .ok [p', l] := by
    unfold Problem.history
    rw [b1]
    simp only [bind, Except.bind]
    have e := processBank_concat (run := transport P.method 2 P.world) (qs := P.perturbations) 1 []
      (Particle.ofBorn b)
    have e' := processBank_concat (run := transport P.method 2 P.world) (qs := P.perturbations) 0 []
      (Particle.ofBorn q)
    rw [List.nil_append, ← hp, t1] at e
    rw [List.nil_append, ← hp₂, t2] at e'
    simp only [bind, Except.bind] at e e'
    rw [hsec, List.map_nil, List.nil_append, processBank_nil] at e'
    rw [a1, List.map_singleton, List.append_nil, e'] at e
    rw [e]
    rfl
  obtain ⟨b', c, g, c1, c2, c3, c4⟩ := C78_history hw
    ⟨rfl, ⟨1, rfl, le_rfl, le_rfl⟩, _, hcell, by simp [emberIn]⟩ hd hhist (ball 1 1) oneBin 0
  cases c3
  cases firstCell_unique c2 hcell
  have hcount : crossings (ball 1 1) oneBin [p', l] 0 = 1 := by
    unfold crossings
    rw [List.countP_cons_of_neg, List.countP_cons_of_pos, List.countP_nil]
    · refine decide_eq_true ⟨?_, by simp [oneBin, ParticleBins.getIndex, Bins.getIndex, bind, Except.bind]⟩
      exact ⟨surf, m6, by rw [hbound surf m7], m1⟩
    · intro h
      obtain ⟨⟨_, -, -, h⟩, -⟩ := of_decide_eq_true h
      exact hncs h
  refine ⟨_, hhist, rfl, b', c1, hcount, ?_⟩
  rw [hcount] at c4
  exact_mod_cast c4.symm

end Minimc.Props
