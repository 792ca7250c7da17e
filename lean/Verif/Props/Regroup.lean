import Verif.Lemmas.FineLaw
import Verif.Props.FineGroups
import Verif.Spec.Regroup

/-!
# Groups in any order

The numbers of groups, and how many of them describe the same matter, have nothing to do with what results
mean.
-/

open Classical MeasureTheory ENNReal

namespace Minimc.Props

open Minimc.Spec

variable {G G' : ℕ} {into : ℕ → ℕ} {nodes nodes' : Nuclide → List MgNode}

/-- **C110** If groups stand for other groups, in any order, the numbers of crossings by histories have the
same distribution in all bins that do not tell groups that stand for the same one apart, whatever the
tracking methods. -/
theorem C110_score {P P' : Problem} (hi : StandsFor G G' into) {g : ℕ} (g1 : 1 ≤ g) (g2 : g ≤ G')
    (hsrc : P'.source = { P.source with energy := .group g }) (hw : WellPosed G nodes P.world)
    (hw' : WellPosed G' nodes' P'.world)
    (h : WorldsAlike (FineMaterial G G' into nodes nodes') P.world P'.world)
    (hd : Configured P.source.direction) (surface : SurfaceObj) {bins bins' : ParticleBins}
    (hbins : BinsAlike G' into bins bins') (i : ℕ)
    {a b a' b' : Direction} (hf : ∀ r, P.source.direction = .isotropicFlux r → Frame a b r)
    (hf' : ∀ r, P.source.direction = .isotropicFlux r → Frame a' b' r)
    {c c' : Cell} (hc : FirstCell P.world P.source.position c)
    (hc' : FirstCell P'.world P.source.position c') :
    SameLaw (played endless G nodes P (currentHit surface bins i) a b c (into g))
      (played endless G' nodes' P' (currentHit surface bins' i) a' b' c' g) := by
  have hcc := alike_firstCell h hc hc'
  have hh := measurable_currentHit surface bins i
  have hh' := measurable_currentHit surface bins' i
  have edist : turnDist id P.source.direction = P.source.direction := by cases P.source.direction <;> rfl
  have key := sameLaw_emitted rigid_id hd hf (a' := a') (b' := b') (by rwa [edist])
    (start := fun d us => ⨆ n, chainScore endless G nodes P.world P.method (currentHit surface bins i) n c
      P.source.position d (into g) us)
    (start' := fun d us => ⨆ n, chainScore endless G' nodes' P'.world P'.method (currentHit surface bins' i) n
      c' P.source.position d g us)
    (measurable_all_rounds G nodes P.world P.method hh c P.source.position (into g))
    (measurable_all_rounds G' nodes' P'.world P'.method hh' c' P.source.position g)
    fun d => sameLaw_iSup
      (fun n => measurable_chainScore_us G nodes P.world P.method hh n c _ d (into g))
      (fun n => measurable_chainScore_us G' nodes' P'.world P'.method hh' n c' _ _ g)
      (fun _ _ h us => chainScore_monotone c _ d (into g) us h)
      (fun _ _ h us => chainScore_monotone c' _ _ g us h)
      fun n => lumped_chain hi hw hw' h P.method P'.method hh hh' (fun f d g a1 a2 => by
        unfold currentHit
        rw [hbins.2 d g a1 a2]) n (cellAt_mem (cellAt_of_first hc)) (cellAt_mem (cellAt_of_first hc')) hcc _ d
        g1 g2
  rw [edist] at key
  unfold played
  rw [hsrc]
  exact key

theorem regrouped_source {P P' : Problem} (hP : RegroupedTask G' into P P')
    (h : WorldsAlike (FineMaterial G G' into nodes nodes') P.world P'.world)
    (hs : GroupSource G P.world P.source) : GroupSource G' P'.world P'.source := by
  obtain ⟨g, g1, g2, -, e⟩ := hP.source
  have := alike_groupSource h hs
  rw [e]
  exact ⟨this.type, ⟨g, rfl, g1, g2⟩, this.place⟩

/-- **C110** What runs of the program print for problems with groups that stand for other groups, with any
seeds, numbers of threads, schedules and tracking methods: for every estimator and every bin the mean and the
standard error of the scores of games that have the same distribution. -/
theorem C110_printed {P P' : Problem} (hi : StandsFor G G' into) (hP : RegroupedTask G' into P P')
    (hw : WellPosed G nodes P.world) (hw' : WellPosed G' nodes' P'.world)
    (h : WorldsAlike (FineMaterial G G' into nodes nodes') P.world P'.world)
    (hs : GroupSource G P.world P.source) (hd : Configured P.source.direction) (hinit : FreshSet P.init)
    (hinit' : FreshSet P'.init) (ht : 1 ≤ P.threads) (ht' : 1 ≤ P'.threads) (hb : 1 ≤ P.batchsize)
    {fuel fuel' elapsed elapsed' : ℕ}
    {r r' : EstimatorSet} (hr : SolveResult P fuel 0 r elapsed) (hr' : SolveResult P' fuel' 0 r' elapsed') :
    ∃ a b a' b' c c' g, FirstCell P.world P.source.position c ∧ FirstCell P'.world P.source.position c' ∧
      P.source.energy = .group (into g) ∧ P'.source.energy = .group g ∧
      ∀ (k : ℕ) (e e' : Estimator), P.init.estimators[k]? = some e → P'.init.estimators[k]? = some e' →
        ∃ o o' : Estimator, r.estimators[k]? = some o ∧ r'.estimators[k]? = some o' ∧
          ∀ i < e.base.bins.size,
            (o.base.means P.batchsize)[i]? = some (.ok (mean (sample (fun k =>
              (played generator G nodes P (currentHit e.surface e.base.bins i) a b c (into g)
                (Rng.ofSeed (P.seed + k))).toReal) P.batchsize))) ∧
            (o.base.stdDevs P.batchsize)[i]? = some (.ok (standardError (sample (fun k =>
              (played generator G nodes P (currentHit e.surface e.base.bins i) a b c (into g)
                (Rng.ofSeed (P.seed + k))).toReal) P.batchsize))) ∧
            (o'.base.means P.batchsize)[i]? = some (.ok (mean (sample (fun k =>
              (played generator G' nodes' P' (currentHit e'.surface e'.base.bins i) a' b' c' g
                (Rng.ofSeed (P'.seed + k))).toReal) P.batchsize))) ∧
            (o'.base.stdDevs P.batchsize)[i]? = some (.ok (standardError (sample (fun k =>
              (played generator G' nodes' P' (currentHit e'.surface e'.base.bins i) a' b' c' g
                (Rng.ofSeed (P'.seed + k))).toReal) P.batchsize))) ∧
            SameLaw (played endless G nodes P (currentHit e.surface e.base.bins i) a b c (into g))
              (played endless G' nodes' P' (currentHit e'.surface e'.base.bins i) a' b' c' g) := by
  have hs' := regrouped_source hP h hs
  obtain ⟨t, t1, t2, te, hsrc⟩ := hP.source
  have hd' : Configured P'.source.direction := by
    rw [hsrc]
    exact hd
  obtain ⟨a, b, c, g, f1, f2, f3, f4⟩ := C79_result hw hs hd hinit ht hb hr
  obtain ⟨a', b', c', g', f1', f2', f3', f4'⟩ := C79_result hw' hs' hd' hinit' ht' (hP.histories ▸ hb) hr'
  have ht : P'.source.energy = .group t := by rw [hsrc]
  rw [te] at f3
  rw [ht] at f3'
  cases f3
  cases f3'
  rw [hsrc] at f1' f2'
  obtain ⟨hlen, hget⟩ := List.forall₂_iff_get.1 f4
  obtain ⟨hlen', hget'⟩ := List.forall₂_iff_get.1 f4'
  refine ⟨a, b, a', b', c, c', t, f2, f2', te, ht, fun k e e' he he' => ?_⟩
  obtain ⟨hk, hek⟩ := List.getElem?_eq_some_iff.1 he
  obtain ⟨hk', hek'⟩ := List.getElem?_eq_some_iff.1 he'
  obtain ⟨-, hsurf, hbins⟩ := (List.forall₂_iff_get.1 hP.estimators).2 k hk hk'
  obtain ⟨-, p1⟩ := hget k hk (hlen ▸ hk)
  obtain ⟨-, p2⟩ := hget' k hk' (hlen' ▸ hk')
  simp only [List.get_eq_getElem] at p1 p2 hsurf hbins
  rw [hek] at p1 hsurf hbins
  rw [hek'] at p2 hsurf hbins
  refine ⟨_, _, List.getElem?_eq_getElem (hlen ▸ hk), List.getElem?_eq_getElem (hlen' ▸ hk'),
    fun i hlt => ?_⟩
  obtain ⟨m1, s1⟩ := p1 i hlt
  obtain ⟨m2, s2⟩ := p2 i (hbins.1 ▸ hlt)
  rw [hP.histories] at m2 s2
  refine ⟨m1, s1, m2, s2, ?_⟩
  rw [hsurf]
  exact C110_score hi t1 t2 hsrc hw hw' h hd e.surface hbins i f1 f1' f2 f2'

/-! ### Instances -/

/-- Two groups with each other's numbers. -/
theorem swapped_groups : StandsFor 2 2 fun g => 3 - g := fun g _ _ => by
  dsimp only
  omega

/-- Grit with groups that have each other's numbers. -/
noncomputable def shaleNodes : List MgNode :=
  [.fission (some [3 / 2, 3 / 2]) (some [1, 3 / 4, 1, 1 / 4]) [1 / 3, 1 / 3], .capture [2 / 3, 2 / 3]]

theorem shaleNodes_ok : ∃ m, Multigroup.create 2 shaleNodes = .ok m := by
  simp only [Multigroup.create, shaleNodes, Multigroup.findNubar, Multigroup.findChi,
    Multigroup.findScatter, Multigroup.optionally, Multigroup.createReactions, Multigroup.reactionXS,
    Multigroup.oneDimensional, Multigroup.normalized_ok (G := 2) (flat := [1, 3 / 4, 1, 1 / 4]) rfl, Bind.bind,
    Except.bind]
  exact ⟨_, rfl⟩

noncomputable def shale : Material :=
  ⟨"shale", [(⟨6, "shale", fun _ => some (.multigroup shaleNodes_ok.choose)⟩, 1)], 1⟩

theorem shale_groups : DividedGroups 2 2 (fun g => 3 - g) gritNodes shaleNodes := by
  refine ⟨?_, ?_, ?_, ?_⟩
  · intro r g h1 h2
    obtain rfl | rfl : g = 1 ∨ g = 2 := by omega
    all_goals cases r <;> norm_num [specXS, nodeXS, List.findSome?_cons, shaleNodes, gritNodes, entry1]
  · intro g h h1 h2 k1 k2
    obtain rfl | rfl : h = 1 ∨ h = 2 := by omega
    all_goals norm_num [intoGroup, scatterTable, shaleNodes, gritNodes, entry2, List.range']
  · intro g h1 h2 _
    obtain rfl | rfl : g = 1 ∨ g = 2 := by omega
    all_goals norm_num [nubarTable, shaleNodes, gritNodes, entry1]
  · intro g h1 h2 _
    refine ⟨1, one_pos, fun h k1 k2 => ?_⟩
    obtain rfl | rfl : g = 1 ∨ g = 2 := by omega
    all_goals obtain rfl | rfl : h = 1 ∨ h = 2 := by omega
    all_goals norm_num [intoGroup, chiTable, shaleNodes, gritNodes, entry2, List.range']

theorem shale_fine : FineMaterial 2 2 (fun g => 3 - g) (fun _ => gritNodes) (fun _ => shaleNodes) grit shale :=
  ⟨rfl, .cons ⟨shale_groups, rfl⟩ .nil⟩

/-- A ball of shale with neutrons of the first group. -/
noncomputable def shaleProblem (method : Method) : Problem :=
  { filledProblem shale method with source := { (coalProblem method).source with energy := .group 1 } }

theorem shale_alike (method method' : Method) :
    WorldsAlike (FineMaterial 2 2 (fun g => 3 - g) (fun _ => gritNodes) fun _ => shaleNodes)
      (gritProblem method).world (shaleProblem method').world :=
  .cons ⟨rfl, Or.inr ⟨grit, shale, rfl, rfl, shale_fine⟩⟩ (.cons ⟨rfl, Or.inl ⟨rfl, rfl⟩⟩ .nil)

theorem shale_wellPosed (method : Method) : WellPosed 2 (fun _ => shaleNodes) (shaleProblem method).world := by
  refine C109_well_posed swapped_groups (grit_wellPosed method) (shale_alike method method) ?_
  intro c hc m hm e he
  simp only [shaleProblem, filledProblem, List.mem_cons, List.not_mem_nil, or_false] at hc
  rcases hc with rfl | rfl
  · cases hm
    simp only [shale, List.mem_cons, List.not_mem_nil, or_false] at he
    subst he
    refine ⟨shaleNodes_ok.choose, rfl, shaleNodes_ok.choose_spec, ?_, fun g _ => ⟨_, _, rfl, rfl⟩⟩
    intro n hn
    simp only [shaleNodes, List.mem_cons, List.not_mem_nil, or_false] at hn
    rcases hn with rfl | rfl
    · refine ⟨?_, ?_, ?_⟩
      · intro x hx
        simp only [List.mem_cons, List.not_mem_nil, or_false] at hx
        rcases hx with rfl | rfl <;> norm_num
      · intro l hl x hx
        cases hl
        simp only [List.mem_cons, List.not_mem_nil, or_false] at hx
        rcases hx with rfl | rfl <;> norm_num
      · intro l hl x hx
        cases hl
        simp only [List.mem_cons, List.not_mem_nil, or_false] at hx
        rcases hx with rfl | rfl | rfl | rfl <;> norm_num
    · intro x hx
      simp only [List.mem_cons, List.not_mem_nil, or_false] at hx
      rcases hx with rfl | rfl <;> norm_num
  · cases hm

theorem grit_source (method : Method) : GroupSource 2 (gritProblem method).world (gritProblem method).source := by
  refine fine_source (G := 1) (into := fun _ => 1) (P := coalProblem method) (P' := gritProblem method)
    (nodes := fun _ => coalNodes) (nodes' := fun _ => gritNodes)
    ⟨⟨2, by norm_num, le_rfl, rfl, rfl⟩, rfl, rfl, .cons ⟨rfl, rfl, alike_of_none _ _ rfl⟩ .nil, rfl⟩
    (coal_filled grit_fine method method)
    ⟨rfl, ⟨1, rfl, le_rfl, le_rfl⟩, coalIn, (coal_cells method _).1 ?_, by simp [coalIn]⟩
  change (0 : ℝ) ^ 2 + 0 ^ 2 + 0 ^ 2 < 1
  norm_num

/-- Instance of `C110_score`: fissions, groups in the opposite order and different tracking methods. -/
example : ∃ c c', FirstCell (gritProblem .surfaceTracking).world (gritProblem .surfaceTracking).source.position c ∧
    FirstCell (shaleProblem .cellDeltaTracking).world (gritProblem .surfaceTracking).source.position c' ∧
    SameLaw (played endless 2 (fun _ => gritNodes) (gritProblem .surfaceTracking) (currentHit (ball 1 1) oneBin 0)
        ⟨0, 1, 0⟩ ⟨0, 0, 1⟩ c 2)
      (played endless 2 (fun _ => shaleNodes) (shaleProblem .cellDeltaTracking) (currentHit (ball 1 1) oneBin 0)
        ⟨0, 0, 1⟩ ⟨0, -1, 0⟩ c' 1) := by
  have hs := grit_source .surfaceTracking
  obtain ⟨c, hc, -⟩ := hs.place
  obtain ⟨c', hc', -⟩ := (alike_groupSource (shale_alike .surfaceTracking .cellDeltaTracking) hs).place
  refine ⟨c, c', hc, hc', C110_score (g := 1) swapped_groups le_rfl (by norm_num) rfl (grit_wellPosed _)
    (shale_wellPosed _) (shale_alike _ _) ?_ (ball 1 1) (alike_of_none _ _ rfl) 0 (fun r hr => ?_)
    (fun r hr => ?_) hc hc'⟩
  · change UnitVec ⟨1, 0, 0⟩
    unfold UnitVec
    norm_num
  · cases hr
    exact coal_frame
  · cases hr
    constructor <;> norm_num [UnitVec, cosAngle]

/-- The beam in the absorber with two groups, with another seed. -/
noncomputable def reseeded (method : Method) : Problem := { twinRun method with seed := 7 }

theorem reseeded_task (method method' : Method) :
    RegroupedTask 2 (fun _ => 1) (plainRun method) (reseeded method') :=
  ⟨⟨2, by norm_num, le_rfl, rfl, rfl⟩, .cons ⟨rfl, rfl, wide_alike⟩ .nil, rfl⟩

/-- Instance of `C110_printed`: runs that differ in groups, seeds and tracking methods have results. -/
example : ∃ r k r' k', SolveResult (plainRun .surfaceTracking) (2 ^ 52) 0 r k ∧
    SolveResult (reseeded .cellDeltaTracking) (2 ^ 52) 0 r' k' ∧
    ∃ a b a' b' c c', ∃ o o' : Estimator, r.estimators[0]? = some o ∧ r'.estimators[0]? = some o' ∧
      ∀ i < 6,
        (o.base.means 1000)[i]? = some (.ok (mean (sample (fun k =>
          (played generator 1 (fun _ => [.capture [1]]) (plainRun .surfaceTracking)
            (currentHit (ball 2 2) sixBins i) a b c 1
            (Rng.ofSeed ((plainRun .surfaceTracking).seed + k))).toReal) 1000))) ∧
        (o'.base.means 1000)[i]? = some (.ok (mean (sample (fun k =>
          (played generator 2 (fun _ => [.capture [1, 1]]) (reseeded .cellDeltaTracking)
            (currentHit (ball 2 2) wideBins i) a' b' c' 2 (Rng.ofSeed (7 + k))).toReal) 1000))) ∧
        SameLaw (played endless 1 (fun _ => [.capture [1]]) (plainRun .surfaceTracking)
            (currentHit (ball 2 2) sixBins i) a b c 1)
          (played endless 2 (fun _ => [.capture [1, 1]]) (reseeded .cellDeltaTracking)
            (currentHit (ball 2 2) wideBins i) a' b' c' 2) := by
  obtain ⟨r, k, h⟩ := plain_result .surfaceTracking
  have halike := refilled_alike twin_fine .surfaceTracking .cellDeltaTracking
  have hs' := regrouped_source (reseeded_task .surfaceTracking .cellDeltaTracking) halike
    (plain_source .surfaceTracking)
  obtain ⟨r', k', h'⟩ := absorber_result (P := reseeded .cellDeltaTracking) (twin_wellPosed .cellDeltaTracking) (by
    intro c _ m _ e _ g h1 h2
    simp [specXS, nodeXS]) (refilled_within twin .cellDeltaTracking) hs' (plain_configured .cellDeltaTracking)
    wideTally_fresh (by
    intro x hx
    rw [List.mem_singleton.1 hx]
    exact ⟨rfl, fun d e => ⟨_, rfl⟩⟩)
  obtain ⟨a, b, a', b', c, c', g, -, -, -, hg, key⟩ := C110_printed (P := plainRun .surfaceTracking)
    (P' := reseeded .cellDeltaTracking) twoInOne.range (reseeded_task _ _)
    (shell_wellPosed .surfaceTracking) (twin_wellPosed .cellDeltaTracking) halike (plain_source _)
    (plain_configured _) shellTally_fresh wideTally_fresh (by norm_num [plainRun, shellProblem, slabProblem])
    (by norm_num [reseeded, twinRun, refilledRun]) (by norm_num [plainRun, shellProblem, slabProblem]) h h'
  cases hg
  obtain ⟨o, o', h1, h2, h3⟩ := key 0 _ _ rfl rfl
  refine ⟨r, k, r', k', h, h', a, b, a', b', c, c', o, o', h1, h2, fun i hi => ?_⟩
  obtain ⟨m1, -, m2, -, hl⟩ := h3 i hi
  exact ⟨m1, m2, hl⟩

end Minimc.Props
