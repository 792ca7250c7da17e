import Verif.Lemmas.WalkBins
import Verif.Lemmas.WalkBound
import Verif.Props.Unbiased

/-! # Properties: neutrons that scatter (C77) -/

namespace Minimc.Props

open Classical Spec MeasureTheory ProbabilityTheory
open scoped ENNReal

/-- **C77** A neutron that starts in a cell with material plays the game of `walkScore` with the numbers
of its generator: whatever a crossing scores, the states of its first `n` rounds score what the game
scores in `n` rounds. -/
theorem C77_follows {G : ℕ} {nodes : Nuclide → List MgNode} {w : World} (hw : WellPosed G nodes w)
    {method : Method} {fuel : ℕ} {p last : Particle} {scored : List Particle}
    (h : transport method fuel w p = .ok (last, scored)) {g : ℕ} (ht : p.type = .neutron)
    (hg : p.energy = .group g) (h1 : 1 ≤ g) (h2 : g ≤ G) (hr : Rng.Valid p.rng) (hp : ¬ Ended p)
    {c : Cell} (hc : FirstCell w p.position c) (hm : c.material ≠ none)
    (hit : SurfaceObj → Direction → ℕ → ℝ≥0∞) (n : ℕ) :
    walkScore G nodes w method hit n c p.position p.direction g (drawn p.rng) =
      ((scored.take n).map (scoreOf hit)).sum := by
  obtain ⟨m, hm⟩ := Option.ne_none_iff_exists'.1 hm
  have hcw : c ∈ w.cells := by
    obtain ⟨l, r, hlr, -⟩ := hc
    rw [hlr]
    simp
  have hl := noexcept_eq_ok.1 h
  rw [locate_ok.2 ⟨c, hc, rfl⟩] at hl
  exact loop_walk hw (p := { p with cell := some c }) hl ht hg h1 h2 hr hp hcw rfl hm hit n

/-- **C77** Without fission, what the current estimator counts in a history is the score of the game
that is played with the numbers of the source particle. -/
theorem C77_history {G : ℕ} {nodes : Nuclide → List MgNode} {P : Problem}
    (hw : WellPosed G nodes P.world) (hf : NoFission G nodes P.world)
    (hs : GroupSource G P.world P.source) (hd : Configured P.source.direction) {fuel e : ℕ}
    {states : List Particle} (h : P.history fuel e = .ok states) (surface : SurfaceObj)
    (bins : ParticleBins) (i : ℕ) :
    ∃ b c g, P.source.sample (P.seed + e) = .ok b ∧ FirstCell P.world P.source.position c ∧
      P.source.energy = .group g ∧
      (crossings surface bins states i : ℝ≥0∞) =
        ⨆ n, walkScore G nodes P.world P.method (currentHit surface bins i) n c P.source.position
          b.direction g (drawn (Rng.ofSeed b.seed)) := by
  obtain ⟨b, b1, b2, b3, b4, b5, _⟩ := C51_source_particle P.source hd (P.seed + e)
  obtain ⟨g, g1, g2, g3⟩ := hs.group
  obtain ⟨c, hc, hm'⟩ := hs.place
  obtain ⟨m, hm⟩ := Option.ne_none_iff_exists'.1 hm'
  refine ⟨b, c, g, b1, hc, g1, ?_⟩
  have hcw : c ∈ P.world.cells := by
    obtain ⟨l, r, hlr, -⟩ := hc
    rw [hlr]
    simp
  set p : Particle := (Particle.ofBorn b).setPerturbations P.perturbations with hp
  have hpp : p.position = P.source.position := b2
  have hpd : p.direction = b.direction := rfl
  have hpr : p.rng = Rng.ofSeed b.seed := rfl
  have hpt : p.type = .neutron := b4.trans hs.type
  have hpg : p.energy = .group g := b3.trans g1
  have hc' : FirstCell P.world p.position c := hpp ▸ hc
  have hend : ¬ Ended { p with cell := some c } := by
    simp [Ended, hp, Particle.ofBorn, Particle.setPerturbations]
  -- the history is the transport of the source particle
  have key : ∃ last, transportLoop P.method fuel P.world fuel { p with cell := some c } =
      .ok (last, states) := by
    unfold Problem.history at h
    rw [b1] at h
    simp only [bind, Except.bind] at h
    cases fuel with
    | zero =>
      unfold processBank at h
      cases h
    | succ k =>
      have e := processBank_concat (run := transport P.method (k + 1) P.world)
        (qs := P.perturbations) k [] (Particle.ofBorn b)
      rw [List.nil_append] at e
      rw [e, ← hp] at h
      simp only [bind, Except.bind] at h
      cases ht : transport P.method (k + 1) P.world p with
      | error e => rw [ht] at h; cases h
      | ok r =>
        obtain ⟨last, scored⟩ := r
        rw [ht] at h
        dsimp only at h
        have hl := noexcept_eq_ok.1 ht
        rw [locate_ok.2 ⟨c, hc', rfl⟩] at hl
        simp only [bind, Except.bind] at hl
        have hsec : last.secondaries = [] :=
          loop_secondaries hw hf (p := { p with cell := some c }) hl hpt hpg g2 g3
            (Rng.valid_ofSeed b.seed) hend hcw rfl hm
        rw [hsec, List.map_nil, List.nil_append, processBank_nil] at h
        simp only [Except.ok.injEq] at h
        refine ⟨last, ?_⟩
        rw [hl, ← h]
        simp
  obtain ⟨last, hl⟩ := key
  have hwalk := fun n => loop_walk hw (p := { p with cell := some c }) hl hpt hpg g2 g3
    (Rng.valid_ofSeed b.seed) hend hcw rfl hm (currentHit surface bins i) n
  have hgr : ∀ q ∈ states, ∃ g, q.energy = .group g := by
    rcases group_loop hw P.method fuel fuel { p with cell := some c } fun _ =>
      ⟨⟨hpt, ⟨g, hpg, g2, g3⟩, Rng.valid_ofSeed b.seed⟩, c, hcw, rfl, hm'⟩ with ⟨r, r1, r2, -⟩ | r1
    · rw [hl] at r1
      cases r1
      exact r2
    · rw [hl] at r1
      cases r1
  rw [← sum_currentHit hgr, ← hpp, ← hpd, ← hpr]
  refine le_antisymm ?_ (iSup_le fun n => ?_)
  · refine le_iSup_of_le states.length ?_
    rw [hwalk states.length, List.take_length]
  · rw [hwalk n, List.map_take]
    conv_rhs => rw [← List.take_append_drop n (states.map _), List.sum_append]
    exact le_self_add

/-- **C77** If the numbers are independent, the mean score of `n + 1` rounds follows from that of `n`
rounds: emission along the flight and passage through the surface, both attenuated. -/
theorem C77_rounds {G : ℕ} {nodes : Nuclide → List MgNode} {w : World} (hw : WellPosed G nodes w)
    (method : Method) {hit : SurfaceObj → Direction → ℕ → ℝ≥0∞}
    (hh : ∀ s g, Measurable fun d => hit s d g) {c : Cell} (hc : c ∈ w.cells) (x : Point)
    (d : Direction) {g : ℕ} (h1 : 1 ≤ g) (h2 : g ≤ G) :
    walkMean G nodes w method hit 0 c x d g = 0 ∧
    ∀ n, walkMean G nodes w method hit (n + 1) c x d g =
      transported G nodes w hit (walkMean G nodes w method hit n) c x d g :=
  ⟨by simp [walkMean, walkScore], fun n => walkMean_succ hw method hh n hc x d h1 h2⟩

/-- **C77** The mean score satisfies the integral transport equation. -/
theorem C77_equation {G : ℕ} {nodes : Nuclide → List MgNode} {w : World} (hw : WellPosed G nodes w)
    (method : Method) {hit : SurfaceObj → Direction → ℕ → ℝ≥0∞}
    (hh : ∀ s g, Measurable fun d => hit s d g) {c : Cell} (hc : c ∈ w.cells) (x : Point)
    (d : Direction) {g : ℕ} (h1 : 1 ≤ g) (h2 : g ≤ G) :
    meanScore G nodes w method hit c x d g =
      transported G nodes w hit (meanScore G nodes w method hit) c x d g := by
  have hfun : meanScore G nodes w method hit = fun c x d g =>
      ⨆ n, walkMean G nodes w method hit n c x d g := by
    funext c x d g
    exact meanScore_eq hh c x d g
  rw [hfun]
  dsimp only
  have hmono : Monotone fun n => walkMean G nodes w method hit n c x d g :=
    walkMean_monotone c x d g
  rw [transported_iSup (E := walkMean G nodes w method hit) (fun n c g => measurable_walkMean hh n c g)
    fun m n hmn c x d g => walkMean_monotone c x d g hmn, ← hmono.iSup_nat_add 1]
  exact iSup_congr fun n => walkMean_succ hw method hh n hc x d h1 h2

/-- **C77** It is the smallest solution: any function that does not get larger by transport is at least
as large. -/
theorem C77_smallest {G : ℕ} {nodes : Nuclide → List MgNode} {w : World} (hw : WellPosed G nodes w)
    (method : Method) {hit : SurfaceObj → Direction → ℕ → ℝ≥0∞}
    (hh : ∀ s g, Measurable fun d => hit s d g) {E : Cell → Point → Direction → ℕ → ℝ≥0∞}
    (hE : ∀ c ∈ w.cells, ∀ x d g, 1 ≤ g → g ≤ G → transported G nodes w hit E c x d g ≤ E c x d g)
    {c : Cell} (hc : c ∈ w.cells) (x : Point) (d : Direction) {g : ℕ} (h1 : 1 ≤ g) (h2 : g ≤ G) :
    meanScore G nodes w method hit c x d g ≤ E c x d g := by
  rw [meanScore_eq hh]
  refine iSup_le fun n => ?_
  induction n generalizing c x d g with
  | zero => simp [walkMean, walkScore]
  | succ n ih =>
    rw [walkMean_succ hw method hh n hc x d h1 h2]
    refine le_trans ?_ (hE c hc x d g h1 h2)
    exact transported_mono (fun c hc x d g h1 h2 => ih hc x d h1 h2) hc x d h1 h2

/-- **C77** If a crossing scores at most one, and only if it takes the neutron out of the material, then
the mean score is at most one.  `S` are places where that is so and which neutrons do not leave. -/
theorem C77_at_most_one {G : ℕ} {nodes : Nuclide → List MgNode} {w : World} (hw : WellPosed G nodes w)
    (method : Method) {hit : SurfaceObj → Direction → ℕ → ℝ≥0∞}
    (hh : ∀ s g, Measurable fun d => hit s d g) {S : Cell → Point → Prop}
    (hstay : ∀ c ∈ w.cells, c.material ≠ none → ∀ x d (s : ℝ), S c x → UnitVec d → 0 < s →
      (s : WithTop ℝ) < ahead c x d → S c (along x d s))
    (hnext : ∀ c ∈ w.cells, c.material ≠ none → ∀ x d, S c x → UnitVec d → ahead c x d ≠ ⊤ → ∀ s c',
      faced c x d = some s → cellAt w (beyond c x d) = some c' → S c' (beyond c x d) ∧
        ∀ g, hit s d g ≤ 1 ∧ (hit s d g ≠ 0 → c'.material = none))
    {c : Cell} (hc : c ∈ w.cells) {x : Point} (hx : S c x) {d : Direction} (hd : UnitVec d) {g : ℕ}
    (h1 : 1 ≤ g) (h2 : g ≤ G) : meanScore G nodes w method hit c x d g ≤ 1 := by
  set E : Cell → Point → Direction → ℕ → ℝ≥0∞ := fun c x d _ =>
    if S c x ∧ UnitVec d then (if c.material = none then 0 else 1) else ⊤ with hE
  refine (C77_smallest hw method hh (E := E) ?_ hc x d h1 h2).trans ?_
  swap
  · simp only [hE, if_pos (And.intro hx hd)]
    split_ifs <;> simp
  clear hc hx hd h1 h2 c x d g
  intro c hc x d g h1 h2
  by_cases hS : S c x ∧ UnitVec d
  swap
  · simp [hE, hS]
  obtain ⟨hx, hd⟩ := hS
  cases hm : c.material with
  | none => simp [transported, hm]
  | some m =>
    have hmn : c.material ≠ none := by rw [hm]; simp
    have hpos : 0 < macroscopic G nodes g m :=
      mul_pos (hw.density c hc m hm) (group_shares hw hc hm h1 h2)
    have hEc : E c x d g = 1 := by simp [hE, hx, hd, hm]
    rw [hEc, transported_some hm]
    have hone := lintegral_round c method hpos (t := ahead c x d) (fun _ h => ahead_pos h) 1 fun _ => 1
    have hl : ∫⁻ u, (if FliesTo method (ahead c x d) (-Real.log (1 - u) / macroscopic G nodes g m) then
        (1 : ℝ≥0∞) else 1) ∂uniform = 1 := by
      simp
    rw [hl] at hone
    rw [hone]
    refine add_le_add (setLIntegral_mono' ?_ fun s hs => ?_) ?_
    · exact measurableSet_between _
    · rw [mul_one, mul_comm, ENNReal.ofReal_mul hpos.le]
      refine mul_le_mul_left ?_ _
      rw [← mul_one (ENNReal.ofReal (macroscopic G nodes g m))]
      refine emission_le (hw.density c hc m hm).le (fun e he => (hw.data c hc m hm e he).1.le)
        (fun e he => ?_) g fun d' g' hd' _ _ => ?_
      · obtain ⟨_, _, _, _, hN, _⟩ := hw.data c hc m hm e he
        exact hN
      · simp [hE, hstay c hc hmn x d s hx hd hs.1 hs.2, hd', hm]
    · split_ifs with ht
      · exact le_rfl
      · refine mul_le_mul_right ?_ _
        unfold crossed
        cases hfc : faced c x d with
        | none => simp
        | some s =>
          cases hcl : cellAt w (beyond c x d) with
          | none => simp
          | some c' =>
            obtain ⟨k1, k2⟩ := hnext c hc hmn x d hx hd ht s c' hfc hcl
            obtain ⟨k2, k3⟩ := k2 g
            simp only [Option.elim_some, hE, k1, hd, and_self, if_true]
            by_cases hcm : c'.material = none
            · simpa [hcm] using k2
            · have : hit s d g = 0 := by
                by_contra h
                exact hcm (k3 h)
              simp [hcm, this]

/-- **C77** The mean score does not depend on the method of tracking. -/
theorem C77_methods {G : ℕ} {nodes : Nuclide → List MgNode} {w : World} (hw : WellPosed G nodes w)
    (method method' : Method) {hit : SurfaceObj → Direction → ℕ → ℝ≥0∞}
    (hh : ∀ s g, Measurable fun d => hit s d g) {c : Cell} (hc : c ∈ w.cells) (x : Point)
    (d : Direction) {g : ℕ} (h1 : 1 ≤ g) (h2 : g ≤ G) :
    meanScore G nodes w method hit c x d g = meanScore G nodes w method' hit c x d g :=
  le_antisymm
    (C77_smallest hw method hh
      (fun _ hc x d _ h1 h2 => (C77_equation hw method' hh hc x d h1 h2).ge) hc x d h1 h2)
    (C77_smallest hw method' hh
      (fun _ hc x d _ h1 h2 => (C77_equation hw method hh hc x d h1 h2).ge) hc x d h1 h2)

/-- Averages of independent scores tend to their mean. -/
theorem average_converges {f : (ℕ → ℝ) → ℝ≥0∞} (hfm : Measurable f) (hfin : ∫⁻ us, f us ∂uniforms ≠ ⊤) :
    ∀ᵐ histories ∂(Measure.infinitePi fun _ : ℕ => uniforms),
      Filter.Tendsto (fun n : ℕ => (∑ e ∈ Finset.range n, (f (histories e)).toReal) / n)
        Filter.atTop (nhds (∫⁻ us, f us ∂uniforms).toReal) := by
  have hm : Measurable fun us => (f us).toReal := hfm.ennreal_toReal
  have hev : ∀ e : ℕ, MeasurePreserving (fun histories : ℕ → ℕ → ℝ => histories e)
      (Measure.infinitePi fun _ : ℕ => uniforms) uniforms :=
    fun e => measurePreserving_eval_infinitePi (fun _ : ℕ => uniforms) e
  have hint : Integrable (fun us => (f us).toReal) uniforms :=
    integrable_toReal_of_lintegral_ne_top hfm.aemeasurable hfin
  have hlim := strong_law_ae_real (μ := Measure.infinitePi fun _ : ℕ => uniforms)
    (fun e histories => (f (histories e)).toReal)
    ((hev 0).integrable_comp_of_integrable hint)
    (fun i j hij => (iIndepFun_infinitePi (P := fun _ : ℕ => uniforms)
      (X := fun _ us => (f us).toReal) fun _ => hm).indepFun hij)
    (fun i => ⟨(hm.comp (hev i).measurable).aemeasurable, (hm.comp (hev 0).measurable).aemeasurable, by
      rw [show (fun histories : ℕ → ℕ → ℝ => (f (histories i)).toReal) =
          (fun us => (f us).toReal) ∘ fun hs : ℕ → ℕ → ℝ => hs i from rfl,
        show (fun histories : ℕ → ℕ → ℝ => (f (histories 0)).toReal) =
          (fun us => (f us).toReal) ∘ fun hs : ℕ → ℕ → ℝ => hs 0 from rfl,
        ← Measure.map_map hm (hev i).measurable, ← Measure.map_map hm (hev 0).measurable,
        (hev i).map_eq, (hev 0).map_eq]⟩)
  have hmean : (Measure.infinitePi fun _ : ℕ => uniforms)[fun histories : ℕ → ℕ → ℝ =>
      (f (histories 0)).toReal] = (∫⁻ us, f us ∂uniforms).toReal := by
    have hfe : Measurable fun hs : ℕ → ℕ → ℝ => f (hs 0) := hfm.comp (hev 0).measurable
    refine (integral_toReal hfe.aemeasurable ?_).trans ?_
    rotate_left
    · rw [(hev 0).lintegral_comp hfm]
    · refine ae_lt_top hfe ?_
      rw [(hev 0).lintegral_comp hfm]
      exact hfin
  rw [hmean] at hlim
  exact hlim

/-- **C77** With independent numbers for each history, the average score almost surely tends to the mean
score, if that is finite. -/
theorem C77_converges {G : ℕ} {nodes : Nuclide → List MgNode} {w : World} {method : Method}
    {hit : SurfaceObj → Direction → ℕ → ℝ≥0∞} (hh : ∀ s g, Measurable fun d => hit s d g) {c : Cell}
    {x : Point} {d : Direction} {g : ℕ} (hfin : meanScore G nodes w method hit c x d g ≠ ⊤) :
    ∀ᵐ histories ∂(Measure.infinitePi fun _ : ℕ => uniforms),
      Filter.Tendsto
        (fun n : ℕ => (∑ e ∈ Finset.range n,
          (⨆ k, walkScore G nodes w method hit k c x d g (histories e)).toReal) / n)
        Filter.atTop (nhds (meanScore G nodes w method hit c x d g).toReal) :=
  average_converges (f := fun us => ⨆ k, walkScore G nodes w method hit k c x d g us)
    (Measurable.iSup fun k => measurable_walkScore_us _ _ _ _ hh k c x d g) hfin

/-! ### Instance: a ball of fog -/

/-- Half of the collisions are scatterings. -/
def fogNodes : List MgNode := [.scatter [1], .capture [1]]

theorem fogNodes_ok : ∃ m, Multigroup.create 1 fogNodes = .ok m := by
  simp only [Multigroup.create, fogNodes, Multigroup.findNubar, Multigroup.findChi,
    Multigroup.findScatter, Multigroup.optionally, Multigroup.createReactions, Multigroup.reactionXS,
    Multigroup.createScatterXS, Multigroup.oneDimensional, Multigroup.normalized_ok (G := 1) (flat := [1]) rfl,
    Multigroup.twoDimensional_ok (G := 1) (flat := [1]) rfl, bind, Except.bind]
  exact ⟨_, rfl⟩

noncomputable def fogNuclide : Nuclide where
  id := 1
  name := "f"
  xs := fun _ => some (.multigroup fogNodes_ok.choose)

noncomputable def fog (δ : ℝ) : Material := ⟨"fog", [(fogNuclide, 1)], δ⟩

noncomputable def fogIn (δ : ℝ) : Cell := ⟨"in", [(ball 1 1, true)], some (fog δ), .constant 300⟩

noncomputable def fogOut : Cell := ⟨"out", [(ball 1 1, false)], none, .constant 300⟩

/-- A beam from the centre of a ball that scatters and absorbs. -/
noncomputable def fogProblem (δ : ℝ) (method : Method) : Problem :=
  { slabProblem 1000 8 with
    world := ⟨[ball 1 1], [fogNuclide], [fog δ], .constant 300, [fogIn δ, fogOut]⟩
    method := method
    source := ⟨⟨0, 0, 0⟩, .constant ⟨1, 0, 0⟩, .group 1, .neutron⟩ }

theorem fog_cells (δ : ℝ) (method : Method) (x : Point) :
    (x.x ^ 2 + x.y ^ 2 + x.z ^ 2 < 1 → FirstCell (fogProblem δ method).world x (fogIn δ)) ∧
    (1 ≤ x.x ^ 2 + x.y ^ 2 + x.z ^ 2 → FirstCell (fogProblem δ method).world x fogOut) := by
  have b1 := ball_contains 1 1 x
  norm_num at b1
  refine ⟨fun h => ⟨[], [fogOut], rfl, ?_, by simp⟩, fun h => ⟨[fogIn δ], [], rfl, ?_, ?_⟩⟩
  · simp [InCell, fogIn, b1, h]
  · simp [InCell, fogOut, ← Bool.not_eq_true, b1, h]
  · simp [InCell, fogIn, ← Bool.not_eq_true, b1, h]

theorem fog_total : specTotal 1 fogNodes 1 = 2 := by
  change (1 : ℝ) + colSum 1 [1] 1 + 0 = 2
  norm_num [colSum, entry2, List.range']

theorem fog_wellPosed {δ : ℝ} (hδ : 0 < δ) (method : Method) :
    WellPosed 1 (fun _ => fogNodes) (fogProblem δ method).world := by
  have hcm : ∀ c ∈ (fogProblem δ method).world.cells, ∀ m, c.material = some m →
      m = fog δ ∧ c.surfaceSenses ≠ [] := by
    intro c hc m hm
    simp only [fogProblem, List.mem_cons, List.not_mem_nil, or_false] at hc
    rcases hc with rfl | rfl
    · exact ⟨by simpa [fogIn] using hm.symm, by simp [fogIn]⟩
    · cases hm
  refine ⟨?_, ?_, ?_, ?_, ?_⟩
  · intro x
    obtain ⟨h1, h2⟩ := fog_cells δ method x
    have key : ∃ c, FirstCell (fogProblem δ method).world x c := by
      rcases lt_or_ge (x.x ^ 2 + x.y ^ 2 + x.z ^ 2) 1 with h | h
      · exact ⟨_, h1 h⟩
      · exact ⟨_, h2 h⟩
    obtain ⟨c, l, r, e, hin, -⟩ := key
    exact ⟨c, by rw [e]; simp, hin⟩
  · intro c hc hm
    obtain ⟨m, hm⟩ := Option.ne_none_iff_exists'.1 hm
    exact (hcm c hc m hm).2
  · intro c hc m hm
    rw [(hcm c hc m hm).1]
    exact hδ
  · intro c hc m hm e he
    rw [(hcm c hc m hm).1] at he
    simp only [fog, List.mem_singleton] at he
    subst he
    refine ⟨one_pos, fogNodes_ok.choose, rfl, fogNodes_ok.choose_spec, ?_, ?_⟩
    · intro n hn
      simp only [fogNodes, List.mem_cons, List.not_mem_nil, or_false] at hn
      rcases hn with rfl | rfl <;> intro x hx <;> rw [List.mem_singleton.1 hx] <;> exact zero_le_one
    · intro g hg
      simp [specXS, nodeXS, fogNodes] at hg
  · intro c hc m hm g h1 h2
    rw [(hcm c hc m hm).1]
    obtain rfl : g = 1 := by omega
    refine ⟨(fogNuclide, 1), by simp [fog], ?_⟩
    rw [fog_total]
    norm_num

theorem fog_rate (δ : ℝ) : macroscopic 1 (fun _ => fogNodes) 1 (fog δ) = 2 * δ := by
  simp only [macroscopic, fog, List.map_cons, List.map_nil, List.sum_cons, List.sum_nil, fog_total]
  ring

theorem fog_ahead (δ : ℝ) (x : Point) (d : Direction) :
    ahead (fogIn δ) x d = (ball 1 1).shape.distance x d := by
  simp [ahead, fogIn]

/-- A neutron that is inside the ball stays inside until it has reached the sphere. -/
theorem fog_stays {x : Point} {d : Direction} {s : ℝ} (hx : x.x ^ 2 + x.y ^ 2 + x.z ^ 2 < 1)
    (hd : UnitVec d) (hs : 0 < s) (hlt : (s : WithTop ℝ) < (ball 1 1).shape.distance x d) :
    (along x d s).x ^ 2 + (along x d s).y ^ 2 + (along x d s).z ^ 2 < 1 := by
  by_contra hcon
  rw [not_lt] at hcon
  simp only [along] at hcon
  unfold UnitVec at hd
  set N := x.x ^ 2 + x.y ^ 2 + x.z ^ 2 with hN
  set q := x.x * d.x + x.y * d.y + x.z * d.z with hq
  have hN0 : 0 ≤ N := by positivity
  have hqN : q ^ 2 ≤ N := by
    have : N * (d.x ^ 2 + d.y ^ 2 + d.z ^ 2) - q ^ 2 = (x.x * d.y - x.y * d.x) ^ 2 +
        (x.x * d.z - x.z * d.x) ^ 2 + (x.y * d.z - x.z * d.y) ^ 2 := by
      rw [hN, hq]
      ring
    rw [hd, mul_one] at this
    nlinarith [sq_nonneg (x.x * d.y - x.y * d.x), sq_nonneg (x.x * d.z - x.z * d.x),
      sq_nonneg (x.y * d.z - x.z * d.y)]
  have hq1 : q ≤ 1 := by nlinarith
  have hval : ∀ t : ℝ, (x.x + t * d.x) ^ 2 + (x.y + t * d.y) ^ 2 + (x.z + t * d.z) ^ 2 =
      N + 2 * q * t + t ^ 2 := by
    intro t
    have : (x.x + t * d.x) ^ 2 + (x.y + t * d.y) ^ 2 + (x.z + t * d.z) ^ 2 =
      N + 2 * q * t + t ^ 2 * (d.x ^ 2 + d.y ^ 2 + d.z ^ 2) := by
      rw [hN, hq]
      ring
    rw [this, hd, mul_one]
  have hv : 1 ≤ N + 2 * q * s + s ^ 2 := by rw [← hval]; linarith
  have hneg : ∀ t : ℝ, 0 < t → t ≤ (1 - N) / 4 → N + 2 * q * t + t ^ 2 < 1 := by
    intro t h0 h1
    have e1 : q * t ≤ 1 * t := mul_le_mul_of_nonneg_right hq1 h0.le
    have e2 : t * t ≤ 1 / 4 * t := mul_le_mul_of_nonneg_right (by linarith) h0.le
    linarith
  have hts : (1 - N) / 4 ≤ s := by
    by_contra h
    rw [not_le] at h
    linarith [hneg s hs h.le]
  obtain ⟨t, ht, hle⟩ := C04_no_missed_crossing (ball 1 1).shape x d ((1 - N) / 4) s hd (by linarith)
    hts (by
      simp only [ball, Inside, surfaceValue, along]
      have e1 := hval ((1 - N) / 4)
      have e2 := hval s
      have e3 := hneg ((1 - N) / 4) (by linarith) le_rfl
      intro h
      have := h.1 (by linarith)
      linarith)
  rw [ht] at hlt
  exact absurd (WithTop.coe_lt_coe.1 hlt) (not_lt.2 hle)

/-- Beyond the sphere it is outside. -/
theorem fog_leaves {x : Point} {d : Direction} {t : ℝ} (hx : x.x ^ 2 + x.y ^ 2 + x.z ^ 2 < 1)
    (hd : UnitVec d) (ht : (ball 1 1).shape.distance x d = (t : WithTop ℝ)) :
    1 ≤ (along x d (t + 10 / 2 ^ 52)).x ^ 2 + (along x d (t + 10 / 2 ^ 52)).y ^ 2 +
      (along x d (t + 10 / 2 ^ 52)).z ^ 2 := by
  obtain ⟨t0, ton, -⟩ := C04_distance_first_crossing _ _ _ t hd ht
  simp only [ball, OnSurface, surfaceValue, along] at ton
  simp only [along]
  unfold UnitVec at hd
  set N := x.x ^ 2 + x.y ^ 2 + x.z ^ 2 with hN
  set q := x.x * d.x + x.y * d.y + x.z * d.z with hq
  have hval : ∀ t : ℝ, (x.x + t * d.x) ^ 2 + (x.y + t * d.y) ^ 2 + (x.z + t * d.z) ^ 2 =
      N + 2 * q * t + t ^ 2 := by
    intro t
    have : (x.x + t * d.x) ^ 2 + (x.y + t * d.y) ^ 2 + (x.z + t * d.z) ^ 2 =
      N + 2 * q * t + t ^ 2 * (d.x ^ 2 + d.y ^ 2 + d.z ^ 2) := by
      rw [hN, hq]
      ring
    rw [this, hd, mul_one]
  have e1 := hval t
  rw [hval]
  have hz : N + 2 * q * t + t ^ 2 = 1 := by rw [← e1]; linarith
  have hp : 0 < 2 * q + t := by
    by_contra h
    rw [not_lt] at h
    have := mul_nonpos_of_nonpos_of_nonneg h t0.le
    linarith
  set ε : ℝ := 10 / 2 ^ 52 with hε
  have hε0 : 0 < ε := by rw [hε]; positivity
  have e2 := mul_pos hε0 hp
  have e3 := mul_pos hε0 t0
  have e4 := mul_pos hε0 hε0
  linarith [show N + 2 * q * (t + ε) + (t + ε) ^ 2 =
    N + 2 * q * t + t ^ 2 + ε * (2 * q + t) + ε * t + ε * ε by ring]

/-- Instance of the hypotheses of C77: the mean number of neutrons that leave a ball of fog satisfies the
transport equation; it is at most one and at least the uncollided part, and the average over endlessly
many histories tends to it. -/
example {δ : ℝ} (hδ : 0 < δ) (method : Method) :
    (∀ x d, meanScore 1 (fun _ => fogNodes) (fogProblem δ method).world method
        (currentHit (ball 1 1) oneBin 0) (fogIn δ) x d 1 =
      transported 1 (fun _ => fogNodes) (fogProblem δ method).world (currentHit (ball 1 1) oneBin 0)
        (meanScore 1 (fun _ => fogNodes) (fogProblem δ method).world method
          (currentHit (ball 1 1) oneBin 0)) (fogIn δ) x d 1) ∧
    meanScore 1 (fun _ => fogNodes) (fogProblem δ method).world method
      (currentHit (ball 1 1) oneBin 0) (fogIn δ) ⟨0, 0, 0⟩ ⟨1, 0, 0⟩ 1 ≤ 1 ∧
    ENNReal.ofReal (Real.exp (-(2 * δ))) ≤
      meanScore 1 (fun _ => fogNodes) (fogProblem δ method).world method
        (currentHit (ball 1 1) oneBin 0) (fogIn δ) ⟨0, 0, 0⟩ ⟨1, 0, 0⟩ 1 ∧
    ∀ᵐ histories ∂(Measure.infinitePi fun _ : ℕ => uniforms),
      Filter.Tendsto (fun n : ℕ => (∑ e ∈ Finset.range n,
        (⨆ k, walkScore 1 (fun _ => fogNodes) (fogProblem δ method).world method
          (currentHit (ball 1 1) oneBin 0) k (fogIn δ) ⟨0, 0, 0⟩ ⟨1, 0, 0⟩ 1 (histories e)).toReal) / n)
        Filter.atTop (nhds (meanScore 1 (fun _ => fogNodes) (fogProblem δ method).world method
          (currentHit (ball 1 1) oneBin 0) (fogIn δ) ⟨0, 0, 0⟩ ⟨1, 0, 0⟩ 1).toReal) := by
  have hw := fog_wellPosed hδ method
  have hh := measurable_currentHit (ball 1 1) oneBin 0
  have hc : fogIn δ ∈ (fogProblem δ method).world.cells := by simp [fogProblem]
  have heq := fun x d => C77_equation hw method hh hc x d le_rfl le_rfl
  have hle := C77_at_most_one hw method hh
    (S := fun c x => c = fogIn δ → x.x ^ 2 + x.y ^ 2 + x.z ^ 2 < 1) (by
      rintro c - - x d s hx hd hs hlt rfl
      rw [fog_ahead] at hlt
      exact fog_stays (hx rfl) hd hs hlt) (by
      intro c hc hm x d hx hd ht s c' _ hc'
      simp only [fogProblem, List.mem_cons, List.not_mem_nil, or_false] at hc
      rcases hc with rfl | rfl
      · obtain ⟨t, ht⟩ := WithTop.ne_top_iff_exists.1 ht
        rw [fog_ahead] at ht
        have hb : beyond (fogIn δ) x d = along x d (t + 10 / 2 ^ 52) := by
          unfold beyond
          rw [fog_ahead, ← ht]
          rfl
        have hout := fog_leaves (hx rfl) hd ht.symm
        have := cellAt_of_first ((fog_cells δ method _).2 hout)
        rw [hb, this] at hc'
        cases hc'
        refine ⟨fun h => ?_, fun g => ⟨?_, fun _ => rfl⟩⟩
        · have := congrArg Cell.material h
          cases this
        · unfold currentHit
          split_ifs <;> simp
      · exact absurd rfl hm) hc (x := ⟨0, 0, 0⟩) (fun _ => by norm_num) (d := ⟨1, 0, 0⟩)
      (by norm_num [UnitVec]) (g := 1) le_rfl le_rfl
  refine ⟨heq, hle, ?_, C77_converges hh (ne_top_of_le_ne_top ENNReal.one_ne_top hle)⟩
  have ha : ahead (fogIn δ) ⟨0, 0, 0⟩ ⟨1, 0, 0⟩ = ((1 : ℝ) : WithTop ℝ) := by
    rw [fog_ahead, ball_ahead 1 le_rfl one_pos, sub_zero]
  have hf : faced (fogIn δ) ⟨0, 0, 0⟩ ⟨1, 0, 0⟩ = some (ball 1 1) := by
    simp [faced, fogIn, ahead]
  have hcl : cellAt (fogProblem δ method).world (beyond (fogIn δ) ⟨0, 0, 0⟩ ⟨1, 0, 0⟩) =
      some fogOut := by
    refine cellAt_of_first ((fog_cells δ method _).2 ?_)
    unfold beyond
    rw [ha]
    norm_num [along]
  rw [heq, transported_some (m := fog δ) rfl, ha, if_neg WithTop.coe_ne_top, fog_rate]
  refine le_trans ?_ le_add_self
  unfold crossed
  rw [hf, hcl]
  simp only [WithTop.untopD_coe, Option.elim_some, mul_one]
  refine le_mul_of_one_le_right zero_le (le_add_of_le_left ?_)
  unfold currentHit
  rw [if_pos ⟨rfl, by simp [oneBin, ParticleBins.getIndex, Bins.getIndex, bind, Except.bind]⟩]

theorem canonical_ge {g : ℕ} (h : Rng.Valid g) : 1 / 2 ^ 62 ≤ (Rng.canonical g).1 := by
  have h0 := Rng.canonical_pos h
  unfold Rng.canonical at h0 ⊢
  simp only [Rng.range] at h0 ⊢
  set a := Rng.next g
  set b := Rng.next a
  have hp : (0 : ℝ) < ((a : ℝ) - 1) + ((b : ℝ) - 1) * (2147483646 : ℕ) := by
    rcases (div_pos_iff.1 h0) with h | h
    · exact h.1
    · norm_num at h
  have hz : (0 : ℤ) < ((a : ℤ) - 1) + ((b : ℤ) - 1) * 2147483646 := by
    have : ((0 : ℤ) : ℝ) < (((a : ℤ) - 1 + ((b : ℤ) - 1) * 2147483646 : ℤ) : ℝ) := by
      push_cast at hp ⊢
      exact hp
    exact_mod_cast this
  have hz1 : (1 : ℝ) ≤ ((a : ℝ) - 1) + ((b : ℝ) - 1) * (2147483646 : ℕ) := by
    have : (1 : ℤ) ≤ ((a : ℤ) - 1) + ((b : ℤ) - 1) * 2147483646 := hz
    have : ((1 : ℤ) : ℝ) ≤ (((a : ℤ) - 1 + ((b : ℤ) - 1) * 2147483646 : ℤ) : ℝ) := by exact_mod_cast this
    push_cast at this ⊢
    exact this
  rw [div_le_div_iff₀ (by norm_num) (by norm_num)]
  have : (1 : ℝ) * (((2147483646 : ℕ) : ℝ) * (2147483646 : ℕ)) ≤ 1 * 2 ^ 62 := by norm_num
  nlinarith

/-- In very thin fog every history ends after one flight. -/
theorem thin_fog_history (method : Method) (e : ℕ) :
    ∃ states, (fogProblem (1 / 2 ^ 70) method).history 1 e = .ok states := by
  set P := fogProblem (1 / 2 ^ 70) method with hP
  have hw : WellPosed 1 (fun _ => fogNodes) P.world := fog_wellPosed (by positivity) method
  have hd : Configured P.source.direction := by
    norm_num [hP, fogProblem, Configured, UnitVec]
  have hcell := (fog_cells (1 / 2 ^ 70) method ⟨0, 0, 0⟩).1 (by norm_num)
  have hnf : NoFission 1 (fun _ => fogNodes) P.world := by
    intro c hc m hm e he g _ _
    simp [specXS, nodeXS, fogNodes]
  obtain ⟨b, b1, b2, b3, b4, b5, _⟩ := C51_source_particle P.source hd (P.seed + e)
  have hbd : b.direction = ⟨1, 0, 0⟩ := by
    cases b1
    rfl
  set p : Particle := (Particle.ofBorn b).setPerturbations P.perturbations with hp
  have hpp : p.position = ⟨0, 0, 0⟩ := b2
  have hpd : p.direction = ⟨1, 0, 0⟩ := hbd
  have hend : ¬ Ended { p with cell := some (fogIn (1 / 2 ^ 70)) } := by
    simp [Ended, hp, Particle.ofBorn, Particle.setPerturbations]
  have hr : Rng.Valid p.rng := Rng.valid_ofSeed b.seed
  have hbound : ∀ s, Bounds s (fogIn (1 / 2 ^ 70)) → s = ball 1 1 := by
    rintro s ⟨k, hk⟩
    simp only [fogIn, List.mem_singleton, Prod.mk.injEq] at hk
    exact hk.1
  have hdist : (ball 1 1).shape.distance p.position p.direction = ((1 : ℝ) : WithTop ℝ) := by
    rw [hpp, hpd, ball_ahead 1 le_rfl one_pos, sub_zero]
  obtain ⟨p', k1, k2, -⟩ := group_step_reach hw
    (p := { p with cell := some (fogIn (1 / 2 ^ 70)) }) (g := 1) b4 b3 le_rfl le_rfl hr
    (hpp ▸ hcell : FirstCell P.world p.position _) rfl (m := fog (1 / 2 ^ 70)) rfl (t := 1)
    ⟨⟨ball 1 1, ⟨true, by simp [fogIn]⟩, hdist⟩, fun s hs => by rw [hbound s hs]; exact hdist.ge⟩
    method 1
  have hfar : 1 < -Real.log (1 - (Rng.canonical p.rng).1) /
      macroscopic 1 (fun _ => fogNodes) 1 (fog (1 / 2 ^ 70)) := by
    have u0 := canonical_ge hr
    have u1 := Rng.canonical_lt_one hr
    have hlog := Real.log_le_sub_one_of_pos (sub_pos.2 u1)
    rw [fog_rate, lt_div_iff₀ (by positivity)]
    norm_num at u0 ⊢
    linarith
  obtain ⟨-, q1, ⟨c', q2, -, q3⟩, -⟩ := k2 (by
    cases method
    · exact hfar.le
    · exact hfar)
  have hleak : p'.event = .leak := by
    refine q3.1 ?_
    have hout := (fog_cells (1 / 2 ^ 70) method p'.position).2 (by
      rw [q1]
      change _ ≤ (along p.position p.direction _).x ^ 2 + (along p.position p.direction _).y ^ 2 +
        (along p.position p.direction _).z ^ 2
      rw [hpp, hpd]
      norm_num [along])
    rw [firstCell_unique q2 hout]
    rfl
  have hna : ¬ p'.isAlive = true := fun hal => (alive_iff p').1 hal (.inr (.inr hleak))
  have hloop : transportLoop method 1 P.world 1 { p with cell := some (fogIn (1 / 2 ^ 70)) } =
      .ok (p', [p']) := by
    rw [transportLoop, if_pos ((alive_iff _).2 hend), k1]
    simp only [bind, Except.bind]
    rw [transportLoop, if_neg hna]
  have hsec : p'.secondaries = [] :=
    loop_secondaries hw hnf (p := { p with cell := some (fogIn (1 / 2 ^ 70)) }) hloop b4 b3 le_rfl
      le_rfl hr hend (FirstCell.mem hcell).1 rfl (m := fog (1 / 2 ^ 70)) rfl
  have htr : transport P.method 1 P.world p = .ok (p', [p']) := by
    unfold transport
    rw [locate_ok.2 ⟨_, (hpp ▸ hcell : FirstCell P.world p.position _), rfl⟩]
    simp only [bind, Except.bind]
    change noexcept (transportLoop method 1 P.world 1 _) = _
    rw [hloop]
    rfl
  refine ⟨[p'], ?_⟩
  unfold Problem.history
  rw [b1]
  simp only [bind, Except.bind]
  have e := processBank_concat (run := transport P.method 1 P.world) (qs := P.perturbations) 0 []
    (Particle.ofBorn b)
  rw [List.nil_append, ← hp, htr] at e
  simp only [bind, Except.bind] at e
  rw [hsec, List.map_nil, List.nil_append, processBank_nil] at e
  rw [e]
  rfl

/-- Instance of the hypotheses of C77: in very thin fog every history ends after one flight, and what is
counted is what the game scores. -/
example (method : Method) (e : ℕ) :
    ∃ states, (fogProblem (1 / 2 ^ 70) method).history 1 e = .ok states ∧
      ∃ b, (fogProblem (1 / 2 ^ 70) method).source.sample (1 + e) = .ok b ∧
        (crossings (ball 1 1) oneBin states 0 : ℝ≥0∞) =
          ⨆ n, walkScore 1 (fun _ => fogNodes) (fogProblem (1 / 2 ^ 70) method).world method
            (currentHit (ball 1 1) oneBin 0) n (fogIn (1 / 2 ^ 70)) ⟨0, 0, 0⟩ b.direction 1
            (drawn (Rng.ofSeed b.seed)) := by
  set P := fogProblem (1 / 2 ^ 70) method with hP
  have hw : WellPosed 1 (fun _ => fogNodes) P.world := fog_wellPosed (by positivity) method
  have hd : Configured P.source.direction := by
    norm_num [hP, fogProblem, Configured, UnitVec]
  have hcell := (fog_cells (1 / 2 ^ 70) method ⟨0, 0, 0⟩).1 (by norm_num)
  have hnf : NoFission 1 (fun _ => fogNodes) P.world := by
    intro c hc m hm e he g _ _
    simp [specXS, nodeXS, fogNodes]
  obtain ⟨states, h⟩ := thin_fog_history method e
  refine ⟨states, h, ?_⟩
  obtain ⟨b, c, g, h1, h2, h3, h4⟩ := C77_history hw hnf ⟨rfl, ⟨1, rfl, le_rfl, le_rfl⟩, _, hcell, by simp [fogIn]⟩ hd h
    (ball 1 1) oneBin 0
  cases h3
  cases firstCell_unique h2 hcell
  exact ⟨b, h1, h4⟩

end Minimc.Props
