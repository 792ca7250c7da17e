import Verif.Lemmas.Joint
import Verif.Props.GasAlike

/-!
# Properties: all that is printed together (C102)

C99, C100 and C101 say that each result has the same distribution in related problems.  So has the whole
table of results, with all correlations between the bins and the estimators.
-/

namespace Minimc.Props

open Classical Spec MeasureTheory ProbabilityTheory
open scoped ENNReal

variable {ι : Type} [Fintype ι] {G : ℕ} {nodes nodes' : Nuclide → List MgNode} {R : Point → Point}

/-! ### Scores of one history -/

theorem currentHit_natural (e : Entry) (s : SurfaceObj) (d : Direction) (g : ℕ) :
    ∃ k : ℕ, currentHit e.surface e.bins e.index s d g = k := by
  unfold currentHit
  split_ifs
  · exact ⟨1, by simp⟩
  · exact ⟨0, by simp⟩

theorem energyHit_natural (e : Entry) (s : SurfaceObj) (d : Direction) (g : ℝ) :
    ∃ k : ℕ, energyHit e.surface e.bins e.index s d g = k := by
  unfold energyHit
  split_ifs
  · exact ⟨1, by simp⟩
  · exact ⟨0, by simp⟩

/-- **C102** All scores of a history together have the same distribution in a multigroup problem and in the
turned one, with either tracking method. -/
theorem C102_turned (hR : Rigid R) {P P' : Problem} (hP : Turned R P P') (hw : WellPosed G nodes P.world)
    (hd : Configured P.source.direction) (ht : ∀ c ∈ P.world.cells, CanTurn R c) (entries : ι → Entry)
    {a b a' b' : Direction} (hf : ∀ r, P.source.direction = .isotropicFlux r → Frame a b r)
    (hf' : ∀ r, P'.source.direction = .isotropicFlux r → Frame a' b' r)
    {c : Cell} (hc : c ∈ P.world.cells) (g : ℕ) :
    SameJoint (fun i => played endless G nodes P
        (currentHit (entries i).surface (entries i).bins (entries i).index) a b c g)
      fun i => played endless G nodes P' (currentHit (turnEntry R (entries i)).surface
        (turnEntry R (entries i)).bins (turnEntry R (entries i)).index) a' b' (turnCell R c) g := by
  unfold played
  rw [hP.source] at hf' ⊢
  rw [hP.world]
  simp only [emitted_iSup]
  have mh : ∀ (e : Entry) s g, Measurable fun d => currentHit e.surface e.bins e.index s d g := fun e =>
    measurable_currentHit e.surface e.bins e.index
  have mw : ∀ (es : ι → Entry) s g, Measurable fun d => ∑ i, weight i *
      currentHit (es i).surface (es i).bins (es i).index s d g := fun es s g =>
    Finset.measurable_sum _ fun i _ => (mh (es i) s g).const_mul _
  refine joint_iSup
    (fun n i => measurable_emitted a b _ (measurable_next_us G nodes P.world P.method (mh (entries i)) n c _ g))
    (fun n i => measurable_emitted a' b' _ (measurable_next_us G nodes (turnWorld R P.world) P'.method
      (mh (turnEntry R (entries i))) n (turnCell R c) _ g))
    (fun _ _ hij i us => emitted_mono _ _ _ _ (fun d s => chainScore_monotone c _ d g s hij) us)
    (fun _ _ hij i us => emitted_mono _ _ _ _ (fun d s => chainScore_monotone _ _ d g s hij) us) fun n => ?_
  refine joint_of_sum
    (fun i => measurable_emitted a b _ (measurable_next_us G nodes P.world P.method (mh (entries i)) n c _ g))
    (fun i => measurable_emitted a' b' _ (measurable_next_us G nodes (turnWorld R P.world) P'.method
      (mh (turnEntry R (entries i))) n (turnCell R c) _ g))
    (fun us => tallied_emitted a b _ (fun d s => tallied_chain
      (fun i => currentHit_natural (entries i)) n c P.source.position d g s) us)
    (fun us => tallied_emitted a' b' _ (fun d s => tallied_chain
      (fun i => currentHit_natural (turnEntry R (entries i))) n (turnCell R c) (R P.source.position) d g s) us) ?_
  exact sameLaw_emitted hR hd hf hf'
    (measurable_next_us G nodes P.world P.method (mw entries) n c P.source.position g)
    (measurable_next_us G nodes (turnWorld R P.world) P'.method (mw fun i => turnEntry R (entries i)) n
      (turnCell R c) (R P.source.position) g)
    fun d => sameLaw_chain hR hw ht P.method P'.method (mw entries) (mw fun i => turnEntry R (entries i))
      (fun s d g => Finset.sum_congr rfl fun i _ => congrArg (weight i * ·)
        (turn_currentHit hR (entries i).surface (entries i).bins (entries i).index s d g)) n hc _ d g

/-- **C102** The same in multigroup problems with the same numbers of nuclei with the same data. -/
theorem C102_mixture {P P' : Problem} (hsrc : P'.source = P.source) (hw : WellPosed G nodes P.world)
    (hw' : WellPosed G nodes' P'.world) (h : WorldsAlike (SameAmounts nodes nodes') P.world P'.world)
    (hd : Configured P.source.direction) (entries : ι → Entry) {a b a' b' : Direction}
    (hf : ∀ r, P.source.direction = .isotropicFlux r → Frame a b r)
    (hf' : ∀ r, P.source.direction = .isotropicFlux r → Frame a' b' r)
    {c c' : Cell} (hc : FirstCell P.world P.source.position c)
    (hc' : FirstCell P'.world P.source.position c') (g : ℕ) :
    SameJoint (fun i => played endless G nodes P
        (currentHit (entries i).surface (entries i).bins (entries i).index) a b c g)
      fun i => played endless G nodes' P'
        (currentHit (entries i).surface (entries i).bins (entries i).index) a' b' c' g := by
  have hcc := alike_firstCell h hc hc'
  have edist : turnDist id P.source.direction = P.source.direction := by cases P.source.direction <;> rfl
  unfold played
  rw [hsrc]
  simp only [emitted_iSup]
  have mh : ∀ (e : Entry) s g, Measurable fun d => currentHit e.surface e.bins e.index s d g := fun e =>
    measurable_currentHit e.surface e.bins e.index
  have mw : ∀ s g, Measurable fun d => ∑ i, weight i *
      currentHit (entries i).surface (entries i).bins (entries i).index s d g := fun s g =>
    Finset.measurable_sum _ fun i _ => (mh (entries i) s g).const_mul _
  refine joint_iSup
    (fun n i => measurable_emitted a b _ (measurable_next_us G nodes P.world P.method (mh (entries i)) n c _ g))
    (fun n i => measurable_emitted a' b' _ (measurable_next_us G nodes' P'.world P'.method
      (mh (entries i)) n c' _ g))
    (fun _ _ hij i us => emitted_mono _ _ _ _ (fun d s => chainScore_monotone c _ d g s hij) us)
    (fun _ _ hij i us => emitted_mono _ _ _ _ (fun d s => chainScore_monotone _ _ d g s hij) us) fun n => ?_
  refine joint_of_sum
    (fun i => measurable_emitted a b _ (measurable_next_us G nodes P.world P.method (mh (entries i)) n c _ g))
    (fun i => measurable_emitted a' b' _ (measurable_next_us G nodes' P'.world P'.method
      (mh (entries i)) n c' _ g))
    (fun us => tallied_emitted a b _ (fun d s => tallied_chain
      (fun i => currentHit_natural (entries i)) n c P.source.position d g s) us)
    (fun us => tallied_emitted a' b' _ (fun d s => tallied_chain
      (fun i => currentHit_natural (entries i)) n c' P.source.position d g s) us) ?_
  have key := sameLaw_emitted rigid_id hd hf (a' := a') (b' := b') (by rwa [edist])
    (start := fun d us => chainScore endless G nodes P.world P.method (fun s d g => ∑ i, weight i *
      currentHit (entries i).surface (entries i).bins (entries i).index s d g) n c P.source.position d g us)
    (start' := fun d us => chainScore endless G nodes' P'.world P'.method (fun s d g => ∑ i, weight i *
      currentHit (entries i).surface (entries i).bins (entries i).index s d g) n c' P.source.position d g us)
    (measurable_next_us G nodes P.world P.method mw n c P.source.position g)
    (measurable_next_us G nodes' P'.world P'.method mw n c' P.source.position g)
    fun d => same_chain hw hw' h P.method P'.method mw n (cellAt_mem (cellAt_of_first hc))
      (cellAt_mem (cellAt_of_first hc')) hcc _ d g
  rwa [edist] at key

/-- **C102** The same in problems with gases and continuous energies that are turned or mirrored and made of
the same nuclei. -/
theorem C102_gases {data data' : Nuclide → Continuous} {a b a' b' : Direction → Direction} (hR : Rigid R)
    (h : Frames a b) (h' : Frames a' b') {P P' : Problem}
    (hP : TurnedTask R P P') (hw : GasWorld data P.world) (hw' : GasWorld data' P'.world)
    (hww : GasesAlike R data data' P.world P'.world) (hd : Configured P.source.direction)
    (ht : ∀ c ∈ P.world.cells, CanTurn R c) (entries : ι → Entry)
    {u v u' v' : Direction} (hf : ∀ r, P.source.direction = .isotropicFlux r → Frame u v r)
    (hf' : ∀ r, P'.source.direction = .isotropicFlux r → Frame u' v' r) {c c' : Cell}
    (hc : FirstCell P.world P.source.position c) (hc' : FirstCell P'.world P'.source.position c') {e : ℝ}
    (he : 0 < e) :
    SameJoint (fun i => gasPlayed endless a b data P
        (energyHit (entries i).surface (entries i).bins (entries i).index) u v c e)
      fun i => gasPlayed endless a' b' data' P' (energyHit (turnEntry R (entries i)).surface
        (turnEntry R (entries i)).bins (turnEntry R (entries i)).index) u' v' c' e := by
  have k := cellAt_of_first hc
  have k' := cellAt_of_first hc'
  rw [hP.source] at k' hf'
  have hcc : GasCellsAlike R data data' c c' := by
    rcases gases_cellAt hR ht hww P.source.position with ⟨q1, -⟩ | ⟨q, q', q1, q2, hq⟩
    · rw [k] at q1
      cases q1
    · obtain rfl : q = c := Option.some.inj (q1.symm.trans k)
      obtain rfl : q' = c' := Option.some.inj (q2.symm.trans k')
      exact hq
  unfold gasPlayed
  rw [hP.source]
  simp only [emitted_iSup]
  have mh : ∀ (e : Entry) s, Measurable fun q : Direction × ℝ =>
      energyHit e.surface e.bins e.index s q.1 q.2 := fun e => measurable_energyHit e.surface e.bins e.index
  have mw : ∀ (es : ι → Entry) s, Measurable fun q : Direction × ℝ => ∑ i, weight i *
      energyHit (es i).surface (es i).bins (es i).index s q.1 q.2 := fun es s =>
    Finset.measurable_sum _ fun i _ => (mh (es i) s).const_mul _
  have mr : ∀ {a b : Direction → Direction} (_ : Frames a b) (data : Nuclide → Continuous) (w : World)
      (method : Method) {hit : SurfaceObj → Direction → ℝ → ℝ≥0∞}
      (_ : ∀ s, Measurable fun q : Direction × ℝ => hit s q.1 q.2) (n : ℕ) (c : Cell) (x : Point),
      Measurable fun q : Direction × (ℕ → ℝ) => gasScore endless a b data w method hit n c x q.1 e q.2 :=
    fun h data w method _ hh n c x => (measurable_gasScore_from h hh n c x).comp
      (measurable_fst.prodMk (measurable_const.prodMk measurable_snd))
  refine joint_iSup
    (fun n i => measurable_emitted u v _ (mr h data P.world P.method (mh (entries i)) n c _))
    (fun n i => measurable_emitted u' v' _ (mr h' data' P'.world P'.method (mh (turnEntry R (entries i))) n c' _))
    (fun _ _ hij i us => emitted_mono _ _ _ _ (fun d s => gasScore_monotone c _ d e s hij) us)
    (fun _ _ hij i us => emitted_mono _ _ _ _ (fun d s => gasScore_monotone c' _ d e s hij) us) fun n => ?_
  refine joint_of_sum
    (fun i => measurable_emitted u v _ (mr h data P.world P.method (mh (entries i)) n c _))
    (fun i => measurable_emitted u' v' _ (mr h' data' P'.world P'.method (mh (turnEntry R (entries i))) n c' _))
    (fun us => tallied_emitted u v _ (fun d s => tallied_gas
      (fun i => energyHit_natural (entries i)) n c P.source.position d e s) us)
    (fun us => tallied_emitted u' v' _ (fun d s => tallied_gas
      (fun i => energyHit_natural (turnEntry R (entries i))) n c' (R P.source.position) d e s) us) ?_
  exact sameLaw_emitted_unit hR hd hf hf'
    (mr h data P.world P.method (mw entries) n c P.source.position)
    (mr h' data' P'.world P'.method (mw fun i => turnEntry R (entries i)) n c' (R P.source.position))
    fun d hd => same_gasScore hR h h' hw hw' hww ht P.method P'.method (mw entries)
      (mw fun i => turnEntry R (entries i))
      (fun s d g => Finset.sum_congr rfl fun i _ => congrArg (weight i * ·)
        (turn_energyHit hR (entries i).surface (entries i).bins (entries i).index s d g)) n
      (cellAt_mem k) (cellAt_mem k') hcc _ d e hd he

/-! ### Scores of many histories -/

omit [Fintype ι] in
/-- **C102** If the scores of a history together have the same distribution, then so has everything that is
calculated from all scores of independent histories. -/
theorem C102_run {f f' : ι → (ℕ → ℝ) → ℝ≥0∞} (hf : ∀ i, Measurable (f i)) (hf' : ∀ i, Measurable (f' i))
    (h : SameJoint f f') {Φ : (ℕ → ι → ℝ≥0∞) → ℝ≥0∞} (hΦ : Measurable Φ) :
    ∫⁻ histories, Φ (fun e i => f i (histories e)) ∂(Measure.infinitePi fun _ : ℕ => uniforms) =
      ∫⁻ histories, Φ (fun e i => f' i (histories e)) ∂(Measure.infinitePi fun _ : ℕ => uniforms) := by
  have mj : ∀ {f : ι → (ℕ → ℝ) → ℝ≥0∞} (_ : ∀ i, Measurable (f i)), Measurable fun us i => f i us :=
    fun hf => measurable_pi_lambda _ hf
  have hmap : uniforms.map (fun us i => f i us) = uniforms.map fun us i => f' i us := by
    ext A hA
    rw [Measure.map_apply (mj hf) hA, Measure.map_apply (mj hf') hA]
    have e : ∀ {f : ι → (ℕ → ℝ) → ℝ≥0∞} (_ : ∀ i, Measurable (f i)),
        ∫⁻ us, A.indicator (1 : (ι → ℝ≥0∞) → ℝ≥0∞) (fun i => f i us) ∂uniforms =
          uniforms ((fun us i => f i us) ⁻¹' A) := by
      intro f hf
      rw [← lintegral_indicator_one (mj hf hA)]
      rfl
    have := h (A.indicator 1) (measurable_one.indicator hA)
    rwa [e hf, e hf'] at this
  have key : ∀ {f : ι → (ℕ → ℝ) → ℝ≥0∞} (_ : ∀ i, Measurable (f i)),
      ∫⁻ histories, Φ (fun e i => f i (histories e)) ∂(Measure.infinitePi fun _ : ℕ => uniforms) =
        ∫⁻ scores, Φ scores ∂(Measure.infinitePi fun _ : ℕ => uniforms.map fun us i => f i us) := by
    intro f hf
    have hm : Measurable fun (histories : ℕ → ℕ → ℝ) (e : ℕ) (i : ι) => f i (histories e) :=
      measurable_pi_lambda _ fun e => (mj hf).comp (measurable_pi_apply e)
    rw [← Measure.infinitePi_map_pi (μ := fun _ : ℕ => uniforms) (f := fun _ us i => f i us) fun _ => mj hf,
      lintegral_map hΦ hm]
  rw [key hf, key hf', hmap]

omit [Fintype ι] in
/-- **C102** So the whole table of means and standard deviations has the same distribution, with all
correlations between its entries. -/
theorem C102_table {f f' : ι → (ℕ → ℝ) → ℝ≥0∞} (hf : ∀ i, Measurable (f i)) (hf' : ∀ i, Measurable (f' i))
    (h : SameJoint f f') (n : ℕ) {A : Set (ι → ℝ × ℝ)} (hA : MeasurableSet A) :
    (Measure.infinitePi fun _ : ℕ => uniforms) {histories | table f n histories ∈ A} =
      (Measure.infinitePi fun _ : ℕ => uniforms) {histories | table f' n histories ∈ A} := by
  have hst : Measurable fun (scores : ℕ → ι → ℝ≥0∞) (i : ι) =>
      (mean (sample (fun e => (scores e i).toReal) n), standardError (sample (fun e => (scores e i).toReal) n)) := by
    refine measurable_pi_lambda _ fun i => ?_
    have hm : Measurable fun (scores : ℕ → ι → ℝ≥0∞) (e : ℕ) => scores e i :=
      measurable_pi_lambda _ fun e => (measurable_pi_apply i).comp (measurable_pi_apply e)
    exact ((measurable_mean_sample n).comp hm).prodMk ((measurable_standardError_sample n).comp hm)
  have key := C102_run hf hf' h (Φ := fun scores => A.indicator 1 fun i =>
    (mean (sample (fun e => (scores e i).toReal) n), standardError (sample (fun e => (scores e i).toReal) n)))
    ((measurable_one.indicator hA).comp hst)
  have e : ∀ {f : ι → (ℕ → ℝ) → ℝ≥0∞} (_ : ∀ i, Measurable (f i)),
      ∫⁻ histories, A.indicator (1 : (ι → ℝ × ℝ) → ℝ≥0∞) (table f n histories)
        ∂(Measure.infinitePi fun _ : ℕ => uniforms) =
      (Measure.infinitePi fun _ : ℕ => uniforms) {histories | table f n histories ∈ A} := by
    intro f hf
    have hm : Measurable fun (histories : ℕ → ℕ → ℝ) (e : ℕ) (i : ι) => f i (histories e) :=
      measurable_pi_lambda _ fun e => measurable_pi_lambda _ fun i => (hf i).comp (measurable_pi_apply e)
    exact lintegral_indicator_one ((hst.comp hm) hA)
  exact (e hf).symm.trans (key.trans (e hf'))

/-! ### What runs of the program print -/

theorem prints_of_forall {P : Problem} {r : EstimatorSet} {score : Entry → ℕ → ℝ≥0∞}
    (h : List.Forall₂ (fun o q : Estimator => q.base.name = o.base.name ∧
      ∀ i < o.base.bins.size,
        (q.base.means P.batchsize)[i]? = some (.ok (mean (sample (fun k =>
          (score ⟨o.surface, o.base.bins, i⟩ (P.seed + k)).toReal) P.batchsize))) ∧
        (q.base.stdDevs P.batchsize)[i]? = some (.ok (standardError (sample (fun k =>
          (score ⟨o.surface, o.base.bins, i⟩ (P.seed + k)).toReal) P.batchsize))))
      P.init.estimators r.estimators) : Prints P r score := by
  intro k o ho
  obtain ⟨hlen, hget⟩ := List.forall₂_iff_get.1 h
  obtain ⟨hk, hek⟩ := List.getElem?_eq_some_iff.1 ho
  obtain ⟨n1, p1⟩ := hget k hk (hlen ▸ hk)
  simp only [List.get_eq_getElem] at n1 p1
  rw [hek] at n1 p1
  exact ⟨_, List.getElem?_eq_getElem (hlen ▸ hk), n1, p1⟩

/-- **C102** Runs of a multigroup problem and of the turned one, with any seeds, numbers of threads,
schedules and tracking methods, print the tables of games whose scores together have the same
distribution. -/
theorem C102_turned_result (hR : Rigid R) {P P' : Problem} (hP : Turned R P P')
    (hw : WellPosed G nodes P.world) (hs : GroupSource G P.world P.source)
    (hd : Configured P.source.direction) (ht : ∀ c ∈ P.world.cells, CanTurn R c) (hinit : FreshSet P.init)
    (hth : 1 ≤ P.threads) (hth' : 1 ≤ P'.threads) (hb : 1 ≤ P.batchsize)
    {fuel fuel' elapsed elapsed' : ℕ} {r r' : EstimatorSet} (h : SolveResult P fuel 0 r elapsed)
    (h' : SolveResult P' fuel' 0 r' elapsed') :
    ∃ a b a' b' c g, FirstCell P.world P.source.position c ∧ P.source.energy = .group g ∧
      Prints P r (fun o seed => played generator G nodes P (currentHit o.surface o.bins o.index) a b c g
        (Rng.ofSeed seed)) ∧
      Prints P' r' (fun o seed => played generator G nodes P' (currentHit o.surface o.bins o.index) a' b'
        (turnCell R c) g (Rng.ofSeed seed)) ∧
      ∀ (ι : Type) [Fintype ι] (entries : ι → Entry),
        SameJoint (fun i => played endless G nodes P
            (currentHit (entries i).surface (entries i).bins (entries i).index) a b c g)
          fun i => played endless G nodes P' (currentHit (turnEntry R (entries i)).surface
            (turnEntry R (entries i)).bins (turnEntry R (entries i)).index) a' b' (turnCell R c) g := by
  obtain ⟨hw', hs', hd', hcell⟩ := C99_problem hR hP hw hs hd ht
  have hinit' : FreshSet P'.init := hP.estimators ▸ turn_fresh R hinit
  obtain ⟨a, b, c, g, f1, f2, f3, f4⟩ := C79_result hw hs hd hinit hth hb h
  obtain ⟨a', b', c', g', f1', f2', f3', f4'⟩ := C79_result hw' hs' hd' hinit' hth'
    (hP.histories ▸ hb) h'
  obtain rfl : c' = turnCell R c :=
    Option.some.inj ((cellAt_of_first f2').symm.trans (cellAt_of_first (hcell c f2)))
  obtain rfl : g' = g := by
    rw [hP.source] at f3'
    have : P.source.energy = .group g' := f3'
    rw [f3] at this
    cases this
    rfl
  exact ⟨a, b, a', b', c, g', f2, f3, prints_of_forall f4, prints_of_forall f4', fun ι _ entries =>
    C102_turned hR hP hw hd ht entries f1 f1' (cellAt_mem (cellAt_of_first f2)) g'⟩

/-- **C102** The same for multigroup problems with the same numbers of nuclei with the same data. -/
theorem C102_mixture_result {P P' : Problem} (hsrc : P'.source = P.source) (hinit' : P'.init = P.init)
    (hn : P'.batchsize = P.batchsize) (hw : WellPosed G nodes P.world) (hw' : WellPosed G nodes' P'.world)
    (h : WorldsAlike (SameAmounts nodes nodes') P.world P'.world) (hs : GroupSource G P.world P.source)
    (hd : Configured P.source.direction) (hinit : FreshSet P.init)
    (hth : 1 ≤ P.threads) (hth' : 1 ≤ P'.threads) (hb : 1 ≤ P.batchsize)
    {fuel fuel' elapsed elapsed' : ℕ} {r r' : EstimatorSet} (hr : SolveResult P fuel 0 r elapsed)
    (hr' : SolveResult P' fuel' 0 r' elapsed') :
    ∃ a b a' b' c c' g, FirstCell P.world P.source.position c ∧ P.source.energy = .group g ∧
      Prints P r (fun o seed => played generator G nodes P (currentHit o.surface o.bins o.index) a b c g
        (Rng.ofSeed seed)) ∧
      Prints P' r' (fun o seed => played generator G nodes' P' (currentHit o.surface o.bins o.index) a' b'
        c' g (Rng.ofSeed seed)) ∧
      ∀ (ι : Type) [Fintype ι] (entries : ι → Entry),
        SameJoint (fun i => played endless G nodes P
            (currentHit (entries i).surface (entries i).bins (entries i).index) a b c g)
          fun i => played endless G nodes' P'
            (currentHit (entries i).surface (entries i).bins (entries i).index) a' b' c' g := by
  have hs' : GroupSource G P'.world P'.source := hsrc ▸ alike_groupSource h hs
  obtain ⟨a, b, c, g, f1, f2, f3, f4⟩ := C79_result hw hs hd hinit hth hb hr
  obtain ⟨a', b', c', g', f1', f2', f3', f4'⟩ := C79_result hw' hs' (hsrc ▸ hd) (hinit' ▸ hinit) hth'
    (hn ▸ hb) hr'
  rw [hsrc] at f1' f2' f3'
  obtain rfl : g' = g := by
    rw [f3] at f3'
    cases f3'
    rfl
  exact ⟨a, b, a', b', c, c', g', f2, f3, prints_of_forall f4, prints_of_forall f4', fun ι _ entries =>
    C102_mixture hsrc hw hw' h hd entries f1 f1' f2 f2' g'⟩

/-- **C102** The same for problems with gases and continuous energies. -/
theorem C102_gases_result : ∃ a b : Direction → Direction, Frames a b ∧
    ∀ {R : Point → Point} {data data' : Nuclide → Continuous} {P P' : Problem}, Rigid R →
      TurnedTask R P P' → GasWorld data P.world → GasWorld data' P'.world →
      GasesAlike R data data' P.world P'.world → EnergySource P.world P.source →
      EnergySource P'.world P'.source → Configured P.source.direction →
      (∀ c ∈ P.world.cells, CanTurn R c) → FreshSet P.init → 1 ≤ P.threads → 1 ≤ P'.threads →
      1 ≤ P.batchsize → ∀ {fuel fuel' elapsed elapsed' : ℕ} {r r' : EstimatorSet},
      SolveResult P fuel 0 r elapsed → SolveResult P' fuel' 0 r' elapsed' →
      ∃ u v u' v' c c' e, FirstCell P.world P.source.position c ∧ P.source.energy = .continuous e ∧
        Prints P r (fun o seed => gasPlayed generator a b data P (energyHit o.surface o.bins o.index) u v c e
          (Rng.ofSeed seed)) ∧
        Prints P' r' (fun o seed => gasPlayed generator a b data' P' (energyHit o.surface o.bins o.index)
          u' v' c' e (Rng.ofSeed seed)) ∧
        ∀ (ι : Type) [Fintype ι] (entries : ι → Entry),
          SameJoint (fun i => gasPlayed endless a b data P
              (energyHit (entries i).surface (entries i).bins (entries i).index) u v c e)
            fun i => gasPlayed endless a b data' P' (energyHit (turnEntry R (entries i)).surface
              (turnEntry R (entries i)).bins (turnEntry R (entries i)).index) u' v' c' e := by
  obtain ⟨a, b, hab, key⟩ := C101_printed
  refine ⟨a, b, hab, ?_⟩
  intro R data data' P P' hR hP hw hw' hww hs hs' hd ht hinit hth hth' hb fuel fuel' elapsed elapsed' r r' h h'
  have hd' : Configured P'.source.direction := by
    rw [hP.source]
    exact turn_configured hR hd
  have hinit' : FreshSet P'.init := hP.estimators ▸ turn_fresh R hinit
  obtain ⟨u, v, c, e, f1, f2, f3, he, f4⟩ := key hw hs hd hinit hth hb h
  obtain ⟨u', v', c', e', f1', f2', f3', -, f4'⟩ := key hw' hs' hd' hinit' hth' (hP.histories ▸ hb) h'
  obtain rfl : e' = e := by
    rw [hP.source] at f3'
    have : P.source.energy = .continuous e' := f3'
    rw [f3] at this
    cases this
    rfl
  exact ⟨u, v, u', v', c, c', e', f2, f3, prints_of_forall f4, prints_of_forall f4', fun ι _ entries =>
    C102_gases hR hab hab hP hw hw' hww hd ht entries f1 f1' f2 f2' he⟩

/-! ### Instances -/

/-- Two bins of the current through the ball of C99: the numbers of neutrons in both, and so the correlation
of what is printed for them, are distributed alike for both tracking methods. -/
example (bins : ParticleBins) (n : ℕ) {A : Set (Fin 2 → ℝ × ℝ)} (hA : MeasurableSet A) :
    (Measure.infinitePi fun _ : ℕ => uniforms) {histories |
      table (fun i : Fin 2 => played endless 1 (fun _ => coalNodes) (coalProblem .surfaceTracking)
        (currentHit (ball 1 1) bins i) ⟨0, 1, 0⟩ ⟨0, 0, 1⟩ coalIn 1) n histories ∈ A} =
    (Measure.infinitePi fun _ : ℕ => uniforms) {histories |
      table (fun i : Fin 2 => played endless 1 (fun _ => coalNodes) (coalProblem .cellDeltaTracking)
        (currentHit (ball 1 1) bins i) ⟨0, 1, 0⟩ ⟨0, 0, 1⟩ coalIn 1) n histories ∈ A} := by
  have ux : UnitVec ⟨1, 0, 0⟩ := by unfold UnitVec; norm_num
  have hP : Turned id (coalProblem .surfaceTracking)
      { coalProblem .cellDeltaTracking with init := turnSet id (coalProblem .surfaceTracking).init } :=
    ⟨(turnWorld_id _).symm, rfl, rfl, rfl⟩
  have key := C102_turned (G := 1) (nodes := fun _ => coalNodes) rigid_id hP (coal_wellPosed .surfaceTracking)
    ux (fun c _ => Or.inl rfl) (fun i : Fin 2 => ⟨ball 1 1, bins, i⟩) (a := ⟨0, 1, 0⟩) (b := ⟨0, 0, 1⟩)
    (a' := ⟨0, 1, 0⟩) (b' := ⟨0, 0, 1⟩) (fun x hx => by cases hx; exact coal_frame)
    (fun x hx => by cases hx; exact coal_frame) (c := coalIn) (by simp [coalProblem]) 1
  simp only [turnEntry, turnSurface_id, turnBins_id, turnCell_id] at key
  exact C102_table (fun i => measurable_played (measurable_currentHit _ _ _))
    (fun i => measurable_played (measurable_currentHit _ _ _)) key n hA

/-- All bins of two estimators, at the surface of a ball of charcoal or cinders and at one around it. -/
noncomputable def emberEntries (bins : ParticleBins) (i : Bool × Fin bins.size) : Entry :=
  ⟨if i.1 then ball 1 1 else ball 2 2, bins, i.2⟩

example (method method' : Method) (bins : ParticleBins) :
    SameJoint (fun i => played endless 1 cinderNodes (filledProblem charcoal method)
        (currentHit (emberEntries bins i).surface (emberEntries bins i).bins (emberEntries bins i).index)
        ⟨0, 1, 0⟩ ⟨0, 0, 1⟩ (filledBall charcoal) 1)
      fun i => played endless 1 cinderNodes (filledProblem cinders method')
        (currentHit (emberEntries bins i).surface (emberEntries bins i).bins (emberEntries bins i).index)
        ⟨0, 1, 0⟩ ⟨0, 0, 1⟩ (filledBall cinders) 1 := by
  have ux : UnitVec ⟨1, 0, 0⟩ := by unfold UnitVec; norm_num
  exact C102_mixture (P := filledProblem charcoal method) (P' := filledProblem cinders method') rfl
    (charcoal_wellPosed method) (cinders_wellPosed method') (filled_alike charcoal_amounts method method')
    ux (emberEntries bins) (fun x hx => by cases hx; exact coal_frame)
    (fun x hx => by cases hx; exact coal_frame) (filled_first charcoal method) (filled_first cinders method') 1

/-- All entries of the estimator at the ball of a warm gas of C81, with both tracking methods. -/
example {a b : Direction → Direction} (h : Frames a b) (bins : ParticleBins) (u v : Direction) :
    SameJoint (fun i : Fin bins.size => gasPlayed endless a b (fun _ => warmData) (warmProblem .surfaceTracking)
        (energyHit (ball 1 1) bins i) u v warmIn (3 / 2))
      fun i => gasPlayed endless a b (fun _ => warmData) (warmProblem .cellDeltaTracking)
        (energyHit (ball 1 1) bins i) u v warmIn (3 / 2) := by
  have ux : UnitVec ⟨1, 0, 0⟩ := by unfold UnitVec; norm_num
  have hP : TurnedTask id (warmProblem .surfaceTracking)
      { warmProblem .cellDeltaTracking with init := turnSet id (warmProblem .surfaceTracking).init } :=
    ⟨rfl, rfl, rfl⟩
  have ht : ∀ c ∈ (warmProblem .surfaceTracking).world.cells, CanTurn id c := fun c _ => Or.inl rfl
  have hww := (C101_turned rigid_id (warm_world .surfaceTracking) ht).2
  rw [turnWorld_id] at hww
  have hfirst := (warm_cells .surfaceTracking ⟨0, 0, 0⟩).1 (by norm_num)
  have key := C102_gases rigid_id h h hP (warm_world .surfaceTracking) (warm_world .surfaceTracking) hww ux ht
    (fun i : Fin bins.size => ⟨ball 1 1, bins, i⟩) (u := u) (v := v) (u' := u) (v' := v)
    (fun x hx => by cases hx) (fun x hx => by cases hx) hfirst hfirst (e := 3 / 2) (by norm_num)
  simp only [turnEntry, turnSurface_id, turnBins_id] at key
  exact key

end Minimc.Props
