import Verif.Lemmas.MixtureLaw
import Verif.Props.Turn

/-!
# Properties: how matter is written down (C100)

In a multigroup problem only the shapes of the cells and the numbers of nuclei with the same data count.
If a nuclide is divided into several ones with the same data, if fractions are multiplied by a factor and
the density is divided by it, or if names and temperatures are others, then the same seed gives the same
results.  If the order of the nuclides is another one too, the results have the same distribution.
-/

namespace Minimc.Props

open Classical Spec MeasureTheory ProbabilityTheory
open scoped ENNReal

variable {G : ℕ} {nodes nodes' : Nuclide → List MgNode}

/-! ### The same matter -/

theorem divided_amount {factor : ℝ} {l l' : List (Nuclide × ℝ)} (h : Divided nodes nodes' factor l l')
    (data : List MgNode) :
    ((l'.filter fun e => decide (nodes' e.1 = data)).map Prod.snd).sum =
      factor * ((l.filter fun e => decide (nodes e.1 = data)).map Prod.snd).sum := by
  have key : ∀ (nodes : Nuclide → List MgNode) (l : List (Nuclide × ℝ)),
      ((l.filter fun e => decide (nodes e.1 = data)).map Prod.snd).sum =
        (l.map fun e => e.2 * if nodes e.1 = data then 1 else 0).sum := by
    intro nodes l
    induction l with
    | nil => simp
    | cons e l ih =>
      by_cases hd : nodes e.1 = data
      · rw [List.filter_cons_of_pos (by simpa using hd), List.map_cons, List.sum_cons, ih, List.map_cons,
          List.sum_cons, if_pos hd, mul_one]
      · rw [List.filter_cons_of_neg (by simpa using hd), ih, List.map_cons, List.sum_cons, if_neg hd,
          mul_zero, zero_add]
  rw [key, key]
  exact divided_sum h fun d => if d = data then 1 else 0

/-- **C100** Materials whose nuclides are divided have the same numbers of nuclei. -/
theorem C100_divided_amounts {m m' : Material} (h : DividedMaterial nodes nodes' m m') :
    SameAmounts nodes nodes' m m' := by
  obtain ⟨k, -, h1, h2⟩ := h
  intro data
  unfold amount
  rw [divided_amount h2, ← mul_assoc, h1]

/-- Two cells next to each other in related worlds. -/
theorem alike_mem {Q : Material → Material → Prop} {l l' : List Cell}
    (h : List.Forall₂ (CellsAlike Q) l l') {c' : Cell} (hc : c' ∈ l') : ∃ c ∈ l, CellsAlike Q c c' := by
  induction h with
  | nil => cases hc
  | cons hcc _ ih =>
    rcases List.mem_cons.1 hc with rfl | hc
    · exact ⟨_, by simp, hcc⟩
    · obtain ⟨c, h1, h2⟩ := ih hc
      exact ⟨c, by simp [h1], h2⟩

theorem alike_mem' {Q : Material → Material → Prop} {l l' : List Cell}
    (h : List.Forall₂ (CellsAlike Q) l l') {c : Cell} (hc : c ∈ l) : ∃ c' ∈ l', CellsAlike Q c c' := by
  induction h with
  | nil => cases hc
  | cons hcc _ ih =>
    rcases List.mem_cons.1 hc with rfl | hc
    · exact ⟨_, by simp, hcc⟩
    · obtain ⟨c, h1, h2⟩ := ih hc
      exact ⟨c, by simp [h1], h2⟩

/-- **C100** A world with the nuclides divided is one that transport can deal with, if the data of the
new nuclides are. -/
theorem C100_well_posed {w w' : World} (hw : WellPosed G nodes w)
    (h : WorldsAlike (DividedMaterial nodes nodes') w w')
    (hdata : ∀ c ∈ w'.cells, ∀ m, c.material = some m → ∀ e ∈ m.afracs,
      0 < e.2 ∧ HasGroupData G e.1 (nodes' e.1)) : WellPosed G nodes' w' := by
  have hmat : ∀ c' ∈ w'.cells, ∀ m', c'.material = some m' → ∃ c ∈ w.cells, ∃ m, c.material = some m ∧
      DividedMaterial nodes nodes' m m' := by
    intro c' hc' m' hm'
    obtain ⟨c, hc, hcc⟩ := alike_mem h hc'
    rcases hcc.material with ⟨h1, h2⟩ | ⟨m, m'', h1, h2, hQ⟩
    · rw [h2] at hm'
      cases hm'
    · rw [h2] at hm'
      cases hm'
      exact ⟨c, hc, m, h1, hQ⟩
  refine ⟨?_, ?_, ?_, hdata, ?_⟩
  · intro x
    obtain ⟨c, hc, hx⟩ := hw.covered x
    obtain ⟨c', hc', hcc⟩ := alike_mem' h hc
    exact ⟨c', hc', (alike_inCell hcc x).2 hx⟩
  · intro c' hc' hm'
    obtain ⟨c, hc, hcc⟩ := alike_mem h hc'
    rw [hcc.shape]
    refine hw.bounded c hc fun hn => hm' ?_
    rcases hcc.material with ⟨_, h2⟩ | ⟨m, m'', h1, _, _⟩
    · exact h2
    · rw [hn] at h1
      cases h1
  · intro c' hc' m' hm'
    obtain ⟨c, hc, m, hm, k, hk, h1, -⟩ := hmat c' hc' m' hm'
    have := hw.density c hc m hm
    rw [← h1] at this
    exact pos_of_mul_pos_left this hk.le
  · intro c' hc' m' hm' g g1 g2
    obtain ⟨c, hc, m, hm, k, hk, -, h2⟩ := hmat c' hc' m' hm'
    obtain ⟨e, he, hpos⟩ := hw.reacts c hc m hm g g1 g2
    have hsum := divided_sum h2 fun data => specTotal G data g
    have hf : ∀ e ∈ m.afracs, 0 ≤ e.2 := fun e he => (hw.data c hc m hm e he).1.le
    have hN : ∀ e ∈ m.afracs, NonnegNodes (nodes e.1) := fun e he => by
      obtain ⟨_, _, _, _, h, _⟩ := hw.data c hc m hm e he
      exact h
    have h3 : 0 < (m.afracs.map fun e => e.2 * specTotal G (nodes e.1) g).sum := by
      have hmem : e.2 * specTotal G (nodes e.1) g ∈ m.afracs.map fun e => e.2 * specTotal G (nodes e.1) g :=
        List.mem_map.2 ⟨e, he, rfl⟩
      exact (mul_pos (hw.data c hc m hm e he).1 hpos).trans_le
        (List.single_le_sum (weights_nonneg hf hN) _ hmem)
    by_contra hno
    push Not at hno
    have hsmall : ∀ l : List ℝ, (∀ x ∈ l, x ≤ 0) → l.sum ≤ 0 := by
      intro l
      induction l with
      | nil => simp
      | cons x l ih =>
        intro hl
        rw [List.sum_cons]
        linarith [hl x (by simp), ih fun y hy => hl y (by simp [hy])]
    have h4 : (m'.afracs.map fun e => e.2 * specTotal G (nodes' e.1) g).sum ≤ 0 :=
      hsmall _ fun x hx => by
        obtain ⟨q, hq, rfl⟩ := List.mem_map.1 hx
        exact mul_nonpos_of_nonneg_of_nonpos (hdata c' hc' m' hm' q hq).1.le (hno q hq)
    rw [hsum] at h4
    exact absurd h4 (not_le.2 (mul_pos hk h3))

/-! ### The same results -/

theorem alike_firstCell {Q : Material → Material → Prop} {w w' : World} (h : WorldsAlike Q w w')
    {x : Point} {c c' : Cell} (hc : FirstCell w x c) (hc' : FirstCell w' x c') : CellsAlike Q c c' := by
  rcases alike_cellAt h x with ⟨h1, -⟩ | ⟨a, a', h1, h2, ha⟩
  · rw [cellAt_of_first hc] at h1
    cases h1
  · rw [cellAt_of_first hc] at h1
    rw [cellAt_of_first hc'] at h2
    cases h1
    cases h2
    exact ha

theorem alike_groupSource {Q : Material → Material → Prop} {w w' : World} (h : WorldsAlike Q w w')
    {s : Source} (hs : GroupSource G w s) : GroupSource G w' s := by
  refine ⟨hs.type, hs.group, ?_⟩
  obtain ⟨c, hc, hm⟩ := hs.place
  rcases alike_cellAt h s.position with ⟨h1, -⟩ | ⟨a, a', h1, h2, ha⟩
  · rw [cellAt_of_first hc] at h1
    cases h1
  · rw [cellAt_of_first hc] at h1
    cases h1
    unfold cellAt at h2
    obtain ⟨hin, l, r, e, hl⟩ := List.find?_eq_some_iff_append.1 h2
    refine ⟨a', ⟨l, r, e, by simpa using hin, fun b hb => by simpa using hl b hb⟩, fun hn => hm ?_⟩
    rcases ha.material with ⟨k, -⟩ | ⟨m, m', _, k, _⟩
    · exact k
    · rw [hn] at k
      cases k

/-- **C100** If nuclides are divided into several ones with the same data, whatever the names and the
temperatures, a history crosses every surface as often as before, in every bin. -/
theorem C100_history {P P' : Problem} (hP : SameTask P P') (hw : WellPosed G nodes P.world)
    (hw' : WellPosed G nodes' P'.world) (h : WorldsAlike (DividedMaterial nodes nodes') P.world P'.world)
    (hs : GroupSource G P.world P.source) (hd : Configured P.source.direction) {fuel fuel' e : ℕ}
    {states states' : List Particle} (hh : P.history fuel e = .ok states)
    (hh' : P'.history fuel' e = .ok states') (surface : SurfaceObj) (bins : ParticleBins) (i : ℕ) :
    crossings surface bins states' i = crossings surface bins states i := by
  have hs' : GroupSource G P'.world P'.source := hP.source ▸ alike_groupSource h hs
  obtain ⟨b, c, g, h1, h2, h3, h4⟩ := C78_history hw hs hd hh surface bins i
  obtain ⟨b', c', g', h1', h2', h3', h4'⟩ := C78_history hw' hs' (hP.source ▸ hd) hh' surface bins i
  rw [hP.source] at h1' h2' h3' h4'
  rw [hP.seed, h1] at h1'
  cases h1'
  rw [h3] at h3'
  cases h3'
  have hcc := alike_firstCell h h2 h2'
  have key : (crossings surface bins states' i : ℝ≥0∞) = crossings surface bins states i := by
    rw [h4, h4', hP.method]
    exact iSup_congr fun n => divided_chain generator hw h P.method _ n (cellAt_mem (cellAt_of_first h2)) hcc
      _ _ _ _
  exact_mod_cast key

/-- If the same histories cross the same surfaces in the same bins, runs print the same results. -/
theorem printed_alike {P P' : Problem} (hP : SameTask P P')
    (h : ∀ {fuel fuel' e : ℕ} {states states' : List Particle}, P.history fuel e = .ok states →
      P'.history fuel' e = .ok states' → ∀ (surface : SurfaceObj) (bins : ParticleBins) (i : ℕ),
        crossings surface bins states' i = crossings surface bins states i) (hinit : FreshSet P.init)
    (ht : 1 ≤ P.threads) (ht' : 1 ≤ P'.threads) (hb : 1 ≤ P.batchsize) {fuel fuel' elapsed elapsed' : ℕ}
    {r r' : EstimatorSet} (hr : SolveResult P fuel 0 r elapsed) (hr' : SolveResult P' fuel' 0 r' elapsed') :
    List.Forall₂ (fun o o' : Estimator => o'.base.name = o.base.name ∧
      o'.base.means P.batchsize = o.base.means P.batchsize ∧
      o'.base.stdDevs P.batchsize = o.base.stdDevs P.batchsize) r.estimators r'.estimators := by
  obtain ⟨hists, hl, hh, ha⟩ := C32_as_if_sequential hinit ht hr
  obtain ⟨hists', hl', hh', ha'⟩ := C32_as_if_sequential (hP.estimators ▸ hinit) ht' hr'
  rw [hP.histories] at hl'
  rw [hP.estimators] at ha'
  have hne : hists ≠ [] := by
    rintro rfl
    simp at hl
    omega
  have hne' : hists' ≠ [] := by
    rintro rfl
    simp at hl'
    omega
  have p := C35_printed hinit.shaped hinit.bins hinit.zero hne ha
  have p' := C35_printed hinit.shaped hinit.bins hinit.zero hne' ha'
  have hscore : ∀ (surface : SurfaceObj) (bins : ParticleBins) (i : ℕ),
      hists'.map (historyScore bins (fun p => if Crossed surface p then 1 else 0) · i) =
        hists.map (historyScore bins (fun p => if Crossed surface p then 1 else 0) · i) := by
    intro surface bins i
    apply List.ext_getElem
    · simp [hl, hl']
    · intro k k1 k2
      have k1' : k < hists'.length := by simpa using k1
      have k2' : k < hists.length := by simpa using k2
      simp only [List.getElem_map, historyScore_crossings]
      rw [h (hh k _ (List.getElem?_eq_getElem k2'))
        (hh' k _ (List.getElem?_eq_getElem k1'))]
  rw [hl] at p
  rw [hl'] at p'
  obtain ⟨len, get⟩ := List.forall₂_iff_get.1 p
  obtain ⟨len', get'⟩ := List.forall₂_iff_get.1 p'
  refine List.forall₂_iff_get.2 ⟨len.symm.trans len', fun k k1 k2 => ?_⟩
  obtain ⟨a1, a2, a3, a4, -⟩ := get k (len ▸ k1) k1
  obtain ⟨b1, b2, b3, b4, -⟩ := get' k (len ▸ k1) k2
  refine ⟨b1.trans a1.symm, ?_, ?_⟩
  · apply List.ext_getElem?
    intro i
    by_cases hi : i < (P.init.estimators.get ⟨k, len ▸ k1⟩).base.bins.size
    · rw [(a4 i hi).1, (b4 i hi).1, hscore]
    · rw [List.getElem?_eq_none (by omega), List.getElem?_eq_none (by omega)]
  · apply List.ext_getElem?
    intro i
    by_cases hi : i < (P.init.estimators.get ⟨k, len ▸ k1⟩).base.bins.size
    · rw [(a4 i hi).2, (b4 i hi).2, hscore]
    · rw [List.getElem?_eq_none (by omega), List.getElem?_eq_none (by omega)]

/-- **C100** If nuclides are divided into several ones with the same data, whatever the names, the
temperatures, the numbers of threads and the schedules, then runs with the same seed print the same means
and the same standard deviations for all bins of all estimators. -/
theorem C100_result {P P' : Problem} (hP : SameTask P P') (hw : WellPosed G nodes P.world)
    (hw' : WellPosed G nodes' P'.world) (h : WorldsAlike (DividedMaterial nodes nodes') P.world P'.world)
    (hs : GroupSource G P.world P.source) (hd : Configured P.source.direction) (hinit : FreshSet P.init)
    (ht : 1 ≤ P.threads) (ht' : 1 ≤ P'.threads) (hb : 1 ≤ P.batchsize) {fuel fuel' elapsed elapsed' : ℕ}
    {r r' : EstimatorSet} (hr : SolveResult P fuel 0 r elapsed) (hr' : SolveResult P' fuel' 0 r' elapsed') :
    List.Forall₂ (fun o o' : Estimator => o'.base.name = o.base.name ∧
      o'.base.means P.batchsize = o.base.means P.batchsize ∧
      o'.base.stdDevs P.batchsize = o.base.stdDevs P.batchsize) r.estimators r'.estimators :=
  printed_alike hP (fun hh hh' surface bins i => C100_history hP hw hw' h hs hd hh hh' surface bins i) hinit
    ht ht' hb hr hr'

/-! ### Temperatures and names -/

theorem divided_self (nodes : Nuclide → List MgNode) {l : List (Nuclide × ℝ)} (hl : ∀ e ∈ l, 0 ≤ e.2) :
    Divided nodes nodes 1 l l := by
  induction l with
  | nil => exact Divided.nil
  | cons e l ih =>
    exact Divided.cons (parts := [e]) (by simpa using hl e (by simp)) (by simp)
      (ih fun q hq => hl q (by simp [hq]))

/-- The problem with other names and temperatures of the cells. -/
def reheated (P : Problem) (names : Cell → String) (temperatures : Cell → ScalarField)
    (temperature : ScalarField) : Problem :=
  { P with world := { P.world with
      temperature := temperature
      cells := P.world.cells.map fun c => { c with name := names c, temperature := temperatures c } } }

/-- **C100** Temperatures have no effect in multigroup problems: the same seed gives the same means and
standard deviations, whatever the temperatures of the cells. -/
theorem C100_temperature {P : Problem} (hw : WellPosed G nodes P.world)
    (hs : GroupSource G P.world P.source) (hd : Configured P.source.direction) (hinit : FreshSet P.init)
    (ht : 1 ≤ P.threads) (hb : 1 ≤ P.batchsize) (names : Cell → String) (temperatures : Cell → ScalarField)
    (temperature : ScalarField) {fuel fuel' elapsed elapsed' : ℕ} {r r' : EstimatorSet}
    (hr : SolveResult P fuel 0 r elapsed)
    (hr' : SolveResult (reheated P names temperatures temperature) fuel' 0 r' elapsed') :
    List.Forall₂ (fun o o' : Estimator => o'.base.name = o.base.name ∧
      o'.base.means P.batchsize = o.base.means P.batchsize ∧
      o'.base.stdDevs P.batchsize = o.base.stdDevs P.batchsize) r.estimators r'.estimators := by
  have hpos : ∀ c ∈ P.world.cells, ∀ m, c.material = some m → ∀ e ∈ m.afracs, 0 ≤ e.2 :=
    fun c hc m hm e he => (hw.data c hc m hm e he).1.le
  have h : WorldsAlike (DividedMaterial nodes nodes) P.world (reheated P names temperatures temperature).world := by
    unfold WorldsAlike reheated
    dsimp only
    have key : ∀ l : List Cell, (∀ c ∈ l, c ∈ P.world.cells) →
        List.Forall₂ (CellsAlike (DividedMaterial nodes nodes)) l
          (l.map fun c => { c with name := names c, temperature := temperatures c }) := by
      intro l
      induction l with
      | nil => exact fun _ => List.Forall₂.nil
      | cons c l ih =>
        intro hl
        refine List.Forall₂.cons ⟨rfl, ?_⟩ (ih fun a ha => hl a (by simp [ha]))
        cases hm : c.material with
        | none => exact Or.inl ⟨rfl, rfl⟩
        | some m =>
          exact Or.inr ⟨m, m, rfl, rfl, 1, one_pos, mul_one _, divided_self nodes (hpos c (hl c (by simp)) m hm)⟩
    exact key _ fun _ h => h
  have hw' : WellPosed G nodes (reheated P names temperatures temperature).world :=
    C100_well_posed hw h fun c' hc' m hm e he => by
      obtain ⟨c, hc, rfl⟩ := List.mem_map.1 hc'
      exact hw.data c hc m hm e he
  exact C100_result (P := P) (P' := reheated P names temperatures temperature) ⟨rfl, rfl, rfl, rfl, rfl⟩ hw hw' h hs hd
    hinit ht ht hb hr hr'

/-! ### The same distribution -/

/-- **C100** If two problems have the same numbers of nuclei with the same data in cells of the same
shape, the scores of histories have the same distribution, whatever the order of the nuclides and the
tracking method. -/
theorem C100_score {P P' : Problem} (hsrc : P'.source = P.source) (hw : WellPosed G nodes P.world)
    (hw' : WellPosed G nodes' P'.world) (h : WorldsAlike (SameAmounts nodes nodes') P.world P'.world)
    (hd : Configured P.source.direction) (surface : SurfaceObj) (bins : ParticleBins) (i : ℕ)
    {a b a' b' : Direction} (hf : ∀ r, P.source.direction = .isotropicFlux r → Frame a b r)
    (hf' : ∀ r, P.source.direction = .isotropicFlux r → Frame a' b' r)
    {c c' : Cell} (hc : FirstCell P.world P.source.position c)
    (hc' : FirstCell P'.world P.source.position c') (g : ℕ) :
    SameLaw (played endless G nodes P (currentHit surface bins i) a b c g)
      (played endless G nodes' P' (currentHit surface bins i) a' b' c' g) := by
  have hcc := alike_firstCell h hc hc'
  have hh := measurable_currentHit surface bins i
  have edist : turnDist id P.source.direction = P.source.direction := by cases P.source.direction <;> rfl
  have key := sameLaw_emitted rigid_id hd hf (a' := a') (b' := b') (by rwa [edist])
    (start := fun d us => ⨆ n, chainScore endless G nodes P.world P.method (currentHit surface bins i) n c
      P.source.position d g us)
    (start' := fun d us => ⨆ n, chainScore endless G nodes' P'.world P'.method (currentHit surface bins i) n
      c' P.source.position d g us)
    (measurable_all_rounds G nodes P.world P.method hh c P.source.position g)
    (measurable_all_rounds G nodes' P'.world P'.method hh c' P.source.position g)
    fun d => sameLaw_iSup (fun n => measurable_chainScore_us G nodes P.world P.method hh n c _ d g)
      (fun n => measurable_chainScore_us G nodes' P'.world P'.method hh n c' _ _ g)
      (fun _ _ h us => chainScore_monotone c _ d g us h) (fun _ _ h us => chainScore_monotone c' _ _ g us h)
      fun n => same_chain hw hw' h P.method P'.method hh n (cellAt_mem (cellAt_of_first hc))
        (cellAt_mem (cellAt_of_first hc')) hcc _ d g
  rw [edist] at key
  unfold played
  rw [hsrc]
  exact key

/-- **C100** What runs of the program print for two problems with the same numbers of nuclei, with any
seeds, numbers of threads, schedules and tracking methods: for every estimator and every bin the mean and
the standard error of the scores of games that have the same distribution. -/
theorem C100_printed {P P' : Problem} (hsrc : P'.source = P.source) (hinit' : P'.init = P.init)
    (hn : P'.batchsize = P.batchsize) (hw : WellPosed G nodes P.world) (hw' : WellPosed G nodes' P'.world)
    (h : WorldsAlike (SameAmounts nodes nodes') P.world P'.world) (hs : GroupSource G P.world P.source)
    (hd : Configured P.source.direction) (hinit : FreshSet P.init) (ht : 1 ≤ P.threads)
    (ht' : 1 ≤ P'.threads) (hb : 1 ≤ P.batchsize) {fuel fuel' elapsed elapsed' : ℕ}
    {r r' : EstimatorSet} (hr : SolveResult P fuel 0 r elapsed) (hr' : SolveResult P' fuel' 0 r' elapsed') :
    ∃ a b a' b' c c' g, FirstCell P.world P.source.position c ∧ FirstCell P'.world P.source.position c' ∧
      P.source.energy = .group g ∧
      ∀ (k : ℕ) (e : Estimator), P.init.estimators[k]? = some e →
        ∃ o o' : Estimator, r.estimators[k]? = some o ∧ r'.estimators[k]? = some o' ∧
          ∀ i < e.base.bins.size,
            (o.base.means P.batchsize)[i]? = some (.ok (mean (sample (fun k =>
              (played generator G nodes P (currentHit e.surface e.base.bins i) a b c g
                (Rng.ofSeed (P.seed + k))).toReal) P.batchsize))) ∧
            (o.base.stdDevs P.batchsize)[i]? = some (.ok (standardError (sample (fun k =>
              (played generator G nodes P (currentHit e.surface e.base.bins i) a b c g
                (Rng.ofSeed (P.seed + k))).toReal) P.batchsize))) ∧
            (o'.base.means P.batchsize)[i]? = some (.ok (mean (sample (fun k =>
              (played generator G nodes' P' (currentHit e.surface e.base.bins i) a' b' c' g
                (Rng.ofSeed (P'.seed + k))).toReal) P.batchsize))) ∧
            (o'.base.stdDevs P.batchsize)[i]? = some (.ok (standardError (sample (fun k =>
              (played generator G nodes' P' (currentHit e.surface e.base.bins i) a' b' c' g
                (Rng.ofSeed (P'.seed + k))).toReal) P.batchsize))) ∧
            SameLaw (played endless G nodes P (currentHit e.surface e.base.bins i) a b c g)
              (played endless G nodes' P' (currentHit e.surface e.base.bins i) a' b' c' g) := by
  have hs' : GroupSource G P'.world P'.source := hsrc ▸ alike_groupSource h hs
  obtain ⟨a, b, c, g, f1, f2, f3, f4⟩ := C79_result hw hs hd hinit ht hb hr
  obtain ⟨a', b', c', g', f1', f2', f3', f4'⟩ := C79_result hw' hs' (hsrc ▸ hd) (hinit' ▸ hinit) ht'
    (hn ▸ hb) hr'
  rw [hsrc] at f1' f2' f3'
  obtain rfl : g' = g := by
    rw [f3] at f3'
    cases f3'
    rfl
  obtain ⟨hlen, hget⟩ := List.forall₂_iff_get.1 f4
  obtain ⟨hlen', hget'⟩ := List.forall₂_iff_get.1 f4'
  refine ⟨a, b, a', b', c, c', g', f2, f2', f3, fun k e he => ?_⟩
  obtain ⟨hk, hek⟩ := List.getElem?_eq_some_iff.1 he
  have he' : P'.init.estimators[k]? = some e := hinit' ▸ he
  obtain ⟨hk', hek'⟩ := List.getElem?_eq_some_iff.1 he'
  obtain ⟨-, p1⟩ := hget k hk (hlen ▸ hk)
  obtain ⟨-, p2⟩ := hget' k hk' (hlen' ▸ hk')
  simp only [List.get_eq_getElem] at p1 p2
  rw [hek] at p1
  rw [hek'] at p2
  refine ⟨_, _, List.getElem?_eq_getElem (hlen ▸ hk), List.getElem?_eq_getElem (hlen' ▸ hk'),
    fun i hi => ?_⟩
  obtain ⟨m1, s1⟩ := p1 i hi
  obtain ⟨m2, s2⟩ := p2 i hi
  rw [hn] at m2 s2
  exact ⟨m1, s1, m2, s2, C100_score hsrc hw hw' h hd e.surface e.base.bins i f1 f1' f2 f2' g'⟩

/-! ### Instances -/

/-- Coal with other names. -/
noncomputable def soot : Nuclide := { coalNuclide with id := 2, name := "soot" }

noncomputable def peat : Nuclide := { coalNuclide with id := 3, name := "peat" }

/-- Coal as a mixture of two nuclides. -/
noncomputable def smoke : Material := ⟨"smoke", [(soot, 1 / 2), (peat, 3 / 2)], 1 / 2⟩

/-- The ball filled with another material, at another temperature. -/
noncomputable def filledBall (m : Material) : Cell := ⟨"other", [(ball 1 1, true)], some m, .constant 600⟩

noncomputable def filledProblem (m : Material) (method : Method) : Problem :=
  { coalProblem method with
    world := ⟨[ball 1 1], m.afracs.map Prod.fst, [m], .constant 600, [filledBall m, fogOut]⟩
    threads := 3 }

theorem filled_alike {Q : Material → Material → Prop} {m m' : Material} (h : Q m m') (method method' : Method) :
    WorldsAlike Q (filledProblem m method).world (filledProblem m' method').world :=
  List.Forall₂.cons ⟨rfl, Or.inr ⟨m, m', rfl, rfl, h⟩⟩ (List.Forall₂.cons ⟨rfl, Or.inl ⟨rfl, rfl⟩⟩ List.Forall₂.nil)

theorem coal_filled {Q : Material → Material → Prop} {m : Material} (h : Q coal m) (method method' : Method) :
    WorldsAlike Q (coalProblem method).world (filledProblem m method').world :=
  List.Forall₂.cons ⟨rfl, Or.inr ⟨coal, m, rfl, rfl, h⟩⟩
    (List.Forall₂.cons ⟨rfl, Or.inl ⟨rfl, rfl⟩⟩ List.Forall₂.nil)

theorem smoke_divided : DividedMaterial (fun _ => coalNodes) (fun _ => coalNodes) coal smoke := by
  refine ⟨2, by norm_num, by norm_num [smoke, coal], ?_⟩
  have := Divided.cons (nodes := fun _ => coalNodes) (nodes' := fun _ => coalNodes) (factor := 2)
    (e := (coalNuclide, 1)) (parts := [(soot, 1 / 2), (peat, 3 / 2)])
    (by
      intro p hp
      simp only [List.mem_cons, List.not_mem_nil, or_false] at hp
      rcases hp with rfl | rfl <;> norm_num)
    (by norm_num) Divided.nil
  exact this

theorem smoke_wellPosed (method : Method) :
    WellPosed 1 (fun _ => coalNodes) (filledProblem smoke method).world := by
  refine C100_well_posed (coal_wellPosed method) (coal_filled smoke_divided method method) ?_
  intro c hc m hm e he
  simp only [filledProblem, List.mem_cons, List.not_mem_nil, or_false] at hc
  rcases hc with rfl | rfl
  · cases hm
    simp only [smoke, List.mem_cons, List.not_mem_nil, or_false] at he
    rcases he with rfl | rfl
    · exact ⟨by norm_num, coalNodes_ok.choose, rfl, coalNodes_ok.choose_spec, coal_nonneg,
        fun g _ => ⟨[3 / 2], [1], rfl, rfl⟩⟩
    · exact ⟨by norm_num, coalNodes_ok.choose, rfl, coalNodes_ok.choose_spec, coal_nonneg,
        fun g _ => ⟨[3 / 2], [1], rfl, rfl⟩⟩
  · cases hm

/-- A ball of coal, and one of a mixture at another temperature: all histories cross the surface of the
ball as often. -/
theorem example_smoke (method : Method) {fuel fuel' e : ℕ} {states states' : List Particle}
    (h : (coalProblem method).history fuel e = .ok states)
    (h' : (filledProblem smoke method).history fuel' e = .ok states') (bins : ParticleBins) (i : ℕ) :
    crossings (ball 1 1) bins states' i = crossings (ball 1 1) bins states i := by
  refine C100_history (G := 1) (nodes := fun _ => coalNodes) (nodes' := fun _ => coalNodes)
    (P := coalProblem method) (P' := filledProblem smoke method) ⟨rfl, rfl, rfl, rfl, rfl⟩
    (coal_wellPosed method) (smoke_wellPosed method) (coal_filled smoke_divided method method)
    ⟨rfl, ⟨1, rfl, le_rfl, le_rfl⟩, coalIn, (coal_cells method _).1 ?_, by simp [coalIn]⟩ ?_ h h' _ bins i
  · change (0 : ℝ) ^ 2 + 0 ^ 2 + 0 ^ 2 < 1
    norm_num
  · change UnitVec ⟨1, 0, 0⟩
    unfold UnitVec
    norm_num

/-- A nuclide that captures only. -/
noncomputable def ashNodes : List MgNode := [.capture [1]]

theorem ashNodes_ok : ∃ m, Multigroup.create 1 ashNodes = .ok m := by
  simp only [Multigroup.create, ashNodes, Multigroup.findNubar, Multigroup.findChi,
    Multigroup.findScatter, Multigroup.optionally, Multigroup.createReactions, Multigroup.reactionXS,
    Multigroup.oneDimensional, Bind.bind, Except.bind]
  exact ⟨_, rfl⟩

noncomputable def ash : Nuclide := ⟨4, "ash", fun _ => some (.multigroup ashNodes_ok.choose)⟩

/-- The data of the nuclides. -/
noncomputable def cinderNodes (n : Nuclide) : List MgNode := if n.id = 4 then ashNodes else coalNodes

/-- Half coal, half ash. -/
noncomputable def charcoal : Material := ⟨"charcoal", [(coalNuclide, 1 / 2), (ash, 1 / 2)], 1⟩

/-- The same in another order, with the coal divided, and with other fractions. -/
noncomputable def cinders : Material := ⟨"cinders", [(peat, 3 / 4), (ash, 1), (soot, 1 / 4)], 1 / 2⟩

theorem charcoal_amounts : SameAmounts cinderNodes cinderNodes charcoal cinders := by
  have e1 : cinderNodes coalNuclide = coalNodes := if_neg (by simp [coalNuclide])
  have e2 : cinderNodes ash = ashNodes := if_pos rfl
  have e3 : cinderNodes peat = coalNodes := if_neg (by simp [peat])
  have e4 : cinderNodes soot = coalNodes := if_neg (by simp [soot])
  intro data
  unfold amount
  by_cases h1 : coalNodes = data <;> by_cases h2 : ashNodes = data <;>
    simp [charcoal, cinders, e1, e2, e3, e4, h1, h2] <;> norm_num

theorem ash_data : HasGroupData 1 ash (cinderNodes ash) := by
  have e2 : cinderNodes ash = ashNodes := if_pos rfl
  rw [e2]
  refine ⟨ashNodes_ok.choose, rfl, ashNodes_ok.choose_spec, ?_, fun g hg => ?_⟩
  · intro n hn
    rw [ashNodes, List.mem_singleton] at hn
    subst hn
    intro x hx
    rw [List.mem_singleton.1 hx]
    norm_num
  · exact absurd hg (lt_irrefl (0 : ℝ))

theorem coal_data {n : Nuclide} (hn : n.xs = coalNuclide.xs) (hid : n.id ≠ 4) :
    HasGroupData 1 n (cinderNodes n) := by
  have e2 : cinderNodes n = coalNodes := if_neg hid
  rw [e2]
  exact ⟨coalNodes_ok.choose, by rw [hn]; rfl, coalNodes_ok.choose_spec, coal_nonneg,
    fun g _ => ⟨[3 / 2], [1], rfl, rfl⟩⟩

theorem filled_wellPosed {m : Material} (hd : 0 < m.numberDensity)
    (hdata : ∀ e ∈ m.afracs, 0 < e.2 ∧ HasGroupData 1 e.1 (cinderNodes e.1))
    (hreacts : ∃ e ∈ m.afracs, cinderNodes e.1 = coalNodes) (method : Method) :
    WellPosed 1 cinderNodes (filledProblem m method).world := by
  have hcm : ∀ c ∈ (filledProblem m method).world.cells, ∀ m', c.material = some m' →
      m' = m ∧ c.surfaceSenses ≠ [] := by
    intro c hc m' hm
    simp only [filledProblem, List.mem_cons, List.not_mem_nil, or_false] at hc
    rcases hc with rfl | rfl
    · exact ⟨by simpa [filledBall] using hm.symm, by simp [filledBall]⟩
    · cases hm
  refine ⟨fun x => ?_, fun c hc hm => ?_, fun c hc m' hm => ?_, fun c hc m' hm e he => ?_,
    fun c hc m' hm g h1 h2 => ?_⟩
  · obtain ⟨c, hc, hx⟩ := (coal_wellPosed method).covered x
    simp only [coalProblem, List.mem_cons, List.not_mem_nil, or_false] at hc
    rcases hc with rfl | rfl
    · exact ⟨filledBall m, by simp [filledProblem], hx⟩
    · exact ⟨fogOut, by simp [filledProblem], hx⟩
  · obtain ⟨m', hm⟩ := Option.ne_none_iff_exists'.1 hm
    exact (hcm c hc m' hm).2
  · rw [(hcm c hc m' hm).1]
    exact hd
  · rw [(hcm c hc m' hm).1] at he
    exact hdata e he
  · rw [(hcm c hc m' hm).1]
    obtain rfl : g = 1 := by omega
    obtain ⟨e, he, e1⟩ := hreacts
    exact ⟨e, he, by rw [e1, coal_total]; norm_num⟩

theorem charcoal_wellPosed (method : Method) :
    WellPosed 1 cinderNodes (filledProblem charcoal method).world := by
  refine filled_wellPosed one_pos ?_ ⟨(coalNuclide, 1 / 2), by simp [charcoal], if_neg (by simp [coalNuclide])⟩
    method
  intro e he
  simp only [charcoal, List.mem_cons, List.not_mem_nil, or_false] at he
  rcases he with rfl | rfl
  · exact ⟨by norm_num, coal_data rfl (by simp [coalNuclide])⟩
  · exact ⟨by norm_num, ash_data⟩

theorem cinders_wellPosed (method : Method) :
    WellPosed 1 cinderNodes (filledProblem cinders method).world := by
  refine filled_wellPosed (by norm_num [cinders]) ?_
    ⟨(peat, 3 / 4), by simp [cinders], if_neg (by simp [peat])⟩ method
  intro e he
  simp only [cinders, List.mem_cons, List.not_mem_nil, or_false] at he
  rcases he with rfl | rfl | rfl
  · exact ⟨by norm_num, coal_data rfl (by simp [peat])⟩
  · exact ⟨by norm_num, ash_data⟩
  · exact ⟨by norm_num, coal_data rfl (by simp [soot])⟩

theorem filled_first (m : Material) (method : Method) :
    FirstCell (filledProblem m method).world (filledProblem charcoal method).source.position (filledBall m) := by
  refine ⟨[], [fogOut], rfl, ?_, by simp⟩
  have b1 := ball_contains 1 1 ⟨0, 0, 0⟩
  norm_num at b1
  simp [InCell, filledBall, filledProblem, coalProblem, b1]

/-- Charcoal and cinders: the scores of histories have the same distribution, with either tracking
method. -/
theorem example_charcoal (method method' : Method) (bins : ParticleBins) (i : ℕ) :
    SameLaw (played endless 1 cinderNodes (filledProblem charcoal method)
        (currentHit (ball 1 1) bins i) ⟨0, 1, 0⟩ ⟨0, 0, 1⟩ (filledBall charcoal) 1)
      (played endless 1 cinderNodes (filledProblem cinders method')
        (currentHit (ball 1 1) bins i) ⟨0, 1, 0⟩ ⟨0, 0, 1⟩ (filledBall cinders) 1) := by
  refine C100_score (P := filledProblem charcoal method) (P' := filledProblem cinders method') rfl
    (charcoal_wellPosed method) (cinders_wellPosed method') (filled_alike charcoal_amounts method method') ?_
    (ball 1 1) bins i ?_ ?_ (filled_first charcoal method) (filled_first cinders method') 1
  · change UnitVec ⟨1, 0, 0⟩
    unfold UnitVec
    norm_num
  · intro r hr
    cases hr
    exact coal_frame
  · intro r hr
    cases hr
    exact coal_frame

end Minimc.Props
