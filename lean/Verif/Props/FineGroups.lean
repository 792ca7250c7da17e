import Verif.Lemmas.FineGroups
import Verif.Props.Mixture
import Verif.Props.RelatedRuns

/-!
# Groups that are divided

Describing the same matter with more groups leaves results of the same seed alone.
-/

open Classical MeasureTheory ENNReal

namespace Minimc.Props

open Minimc.Spec

variable {G G' : ℕ} {into : ℕ → ℕ} {nodes nodes' : Nuclide → List MgNode}

/-- **C109** A world with data for fine groups is one that transport can deal with, if the data are. -/
theorem C109_well_posed (hd : ∀ g, 1 ≤ g → g ≤ G' → 1 ≤ into g ∧ into g ≤ G) {w w' : World} (hw : WellPosed G nodes w)
    (h : WorldsAlike (FineMaterial G G' into nodes nodes') w w')
    (hdata : ∀ c ∈ w'.cells, ∀ m, c.material = some m → ∀ e ∈ m.afracs, HasGroupData G' e.1 (nodes' e.1)) :
    WellPosed G' nodes' w' := by
  have hmat : ∀ c' ∈ w'.cells, ∀ m', c'.material = some m' → ∃ c ∈ w.cells, ∃ m, c.material = some m ∧
      FineMaterial G G' into nodes nodes' m m' := by
    intro c' hc' m' hm'
    obtain ⟨c, hc, hcc⟩ := alike_mem h hc'
    rcases hcc.material with ⟨h1, h2⟩ | ⟨m, m'', h1, h2, hQ⟩
    · rw [hm'] at h2
      cases h2
    · rw [hm'] at h2
      cases h2
      exact ⟨c, hc, m, h1, hQ⟩
  refine ⟨?_, ?_, ?_, ?_, ?_⟩
  · intro x
    obtain ⟨c, hc, hx⟩ := hw.covered x
    obtain ⟨i, hi, rfl⟩ := List.getElem_of_mem hc
    have hi' : i < w'.cells.length := h.length_eq ▸ hi
    exact ⟨w'.cells[i], List.getElem_mem hi', (alike_inCell ((List.forall₂_iff_get.1 h).2 i hi hi') x).2 hx⟩
  · intro c' hc' hm'
    obtain ⟨m', hm'⟩ := Option.ne_none_iff_exists'.1 hm'
    obtain ⟨c, hc, hcc⟩ := alike_mem h hc'
    rw [hcc.shape]
    refine hw.bounded c hc fun hn => ?_
    rcases hcc.material with ⟨-, h2⟩ | ⟨m, m'', h1, -, -⟩
    · rw [hm'] at h2
      cases h2
    · rw [hn] at h1
      cases h1
  · intro c' hc' m' hm'
    obtain ⟨c, hc, m, hm, h1, -⟩ := hmat c' hc' m' hm'
    rw [h1]
    exact hw.density c hc m hm
  · intro c' hc' m' hm' e' he'
    refine ⟨?_, hdata c' hc' m' hm' e' he'⟩
    obtain ⟨c, hc, m, hm, -, hf⟩ := hmat c' hc' m' hm'
    obtain ⟨i, hi', rfl⟩ := List.getElem_of_mem he'
    have hi : i < m.afracs.length := hf.length_eq ▸ hi'
    have h0 : 0 < (m.afracs[i]).2 := (hw.data c hc m hm _ (List.getElem_mem hi)).1
    have he : (m'.afracs[i]).2 = (m.afracs[i]).2 := ((List.forall₂_iff_get.1 hf).2 i hi hi').2
    rw [he]
    exact h0
  · intro c' hc' m' hm' g g1 g2
    obtain ⟨c, hc, m, hm, -, hf⟩ := hmat c' hc' m' hm'
    obtain ⟨k1, k2⟩ := hd g g1 g2
    obtain ⟨e, he, hpos⟩ := hw.reacts c hc m hm (into g) k1 k2
    obtain ⟨i, hi, rfl⟩ := List.getElem_of_mem he
    have hi' : i < m'.afracs.length := hf.length_eq ▸ hi
    refine ⟨m'.afracs[i], List.getElem_mem hi', ?_⟩
    have e1 : specTotal G' (nodes' (m'.afracs[i]).1) g = specTotal G (nodes (m.afracs[i]).1) (into g) :=
      fine_total ((List.forall₂_iff_get.1 hf).2 i hi hi').1 g1 g2
    rw [e1]
    exact hpos

/-! ### The same results -/

theorem fine_source {P P' : Problem} (hP : FineTask G' into P P')
    (h : WorldsAlike (FineMaterial G G' into nodes nodes') P.world P'.world)
    (hs : GroupSource G P.world P.source) : GroupSource G' P'.world P'.source := by
  obtain ⟨g, g1, g2, -, e⟩ := hP.source
  have := alike_groupSource h hs
  rw [e]
  exact ⟨this.type, ⟨g, rfl, g1, g2⟩, this.place⟩

/-- **C109** If groups are divided, a history crosses every surface as often as before, in all bins that do
not tell the parts of a group apart. -/
theorem C109_history {P P' : Problem} (hd : Subdivides G G' into) (hP : FineTask G' into P P')
    (hw : WellPosed G nodes P.world) (hw' : WellPosed G' nodes' P'.world)
    (h : WorldsAlike (FineMaterial G G' into nodes nodes') P.world P'.world)
    (hs : GroupSource G P.world P.source) (hdir : Configured P.source.direction) {fuel fuel' e : ℕ}
    {states states' : List Particle} (hh : P.history fuel e = .ok states)
    (hh' : P'.history fuel' e = .ok states') (surface : SurfaceObj) {bins bins' : ParticleBins}
    (hbins : BinsAlike G' into bins bins') (i : ℕ) :
    crossings surface bins' states' i = crossings surface bins states i := by
  have hs' := fine_source hP h hs
  obtain ⟨t, t1, t2, te, hsrc⟩ := hP.source
  have hdir' : Configured P'.source.direction := by
    rw [hsrc]
    exact hdir
  obtain ⟨b, c, g, h1, h2, h3, h4⟩ := C78_history hw hs hdir hh surface bins i
  obtain ⟨b', c', g', h1', h2', h3', h4'⟩ := C78_history hw' hs' hdir' hh' surface bins' i
  rw [hsrc] at h1' h2' h3' h4'
  rw [te] at h3
  cases h3
  cases h3'
  have hb : b'.direction = b.direction ∧ b'.seed = b.seed := by
    rw [hP.seed] at h1'
    unfold Source.sample at h1 h1'
    dsimp only at h1'
    cases hx : P.source.direction.sample (Rng.ofSeed (P.seed + e)) with
    | error x =>
      rw [hx] at h1
      cases h1
    | ok p =>
      rw [hx] at h1 h1'
      cases h1
      cases h1'
      exact ⟨rfl, rfl⟩
  have hcc := alike_firstCell h h2 h2'
  have key : (crossings surface bins' states' i : ℝ≥0∞) = crossings surface bins states i := by
    rw [h4, h4', hP.method, hb.1, hb.2]
    refine iSup_congr fun n => fine_chain generator hd hw' h P.method (fun f d g a1 a2 => ?_) n
      (cellAt_mem (cellAt_of_first h2')) hcc _ _ t1 t2 _
    unfold currentHit
    rw [hbins.2 d g a1 a2]
  exact_mod_cast key

/-- If the same histories cross the surfaces of estimators in the same bins, runs print the same results. -/
theorem printed_related {P P' : Problem} (hn : P'.batchsize = P.batchsize)
    (h : List.Forall₂ (fun x x' : Estimator => x'.base.name = x.base.name ∧
      x'.base.bins.size = x.base.bins.size ∧
      ∀ {fuel fuel' e : ℕ} {states states' : List Particle}, P.history fuel e = .ok states →
        P'.history fuel' e = .ok states' → ∀ i,
          crossings x'.surface x'.base.bins states' i = crossings x.surface x.base.bins states i)
      P.init.estimators P'.init.estimators) (hinit : FreshSet P.init) (hinit' : FreshSet P'.init)
    (ht : 1 ≤ P.threads) (ht' : 1 ≤ P'.threads) (hb : 1 ≤ P.batchsize) {fuel fuel' elapsed elapsed' : ℕ}
    {r r' : EstimatorSet} (hr : SolveResult P fuel 0 r elapsed) (hr' : SolveResult P' fuel' 0 r' elapsed') :
    List.Forall₂ (fun o o' : Estimator => o'.base.name = o.base.name ∧
      o'.base.means P.batchsize = o.base.means P.batchsize ∧
      o'.base.stdDevs P.batchsize = o.base.stdDevs P.batchsize) r.estimators r'.estimators := by
  obtain ⟨hists, hl, hh, ha⟩ := C32_as_if_sequential hinit ht hr
  obtain ⟨hists', hl', hh', ha'⟩ := C32_as_if_sequential hinit' ht' hr'
  rw [hn] at hl'
  have hne : hists ≠ [] := by
    rintro rfl
    simp at hl
    omega
  have hne' : hists' ≠ [] := by
    rintro rfl
    simp at hl'
    omega
  have p := C35_printed hinit.shaped hinit.bins hinit.zero hne ha
  have p' := C35_printed hinit'.shaped hinit'.bins hinit'.zero hne' ha'
  rw [hl] at p
  rw [hl'] at p'
  obtain ⟨len, get⟩ := List.forall₂_iff_get.1 p
  obtain ⟨len', get'⟩ := List.forall₂_iff_get.1 p'
  obtain ⟨lenx, getx⟩ := List.forall₂_iff_get.1 h
  refine List.forall₂_iff_get.2 ⟨by omega, fun k k1 k2 => ?_⟩
  obtain ⟨a1, a2, a3, a4, -⟩ := get k (by omega) k1
  obtain ⟨b1, b2, b3, b4, -⟩ := get' k (by omega) k2
  obtain ⟨c1, c2, c3⟩ := getx k (by omega) (by omega)
  have hscore : ∀ i : ℕ, hists'.map (historyScore (P'.init.estimators.get ⟨k, by omega⟩).base.bins
      (fun p => if Crossed (P'.init.estimators.get ⟨k, by omega⟩).surface p then 1 else 0) · i) =
        hists.map (historyScore (P.init.estimators.get ⟨k, by omega⟩).base.bins
          (fun p => if Crossed (P.init.estimators.get ⟨k, by omega⟩).surface p then 1 else 0) · i) := by
    intro i
    apply List.ext_getElem
    · simp [hl, hl']
    · intro j j1 j2
      have j1' : j < hists'.length := by simpa using j1
      have j2' : j < hists.length := by simpa using j2
      simp only [List.getElem_map, historyScore_crossings]
      rw [c3 (hh j _ (List.getElem?_eq_getElem j2')) (hh' j _ (List.getElem?_eq_getElem j1'))]
  refine ⟨b1.trans (c1.trans a1.symm), ?_, ?_⟩
  · apply List.ext_getElem?
    intro i
    by_cases hi : i < (P.init.estimators.get ⟨k, by omega⟩).base.bins.size
    · rw [(a4 i hi).1, (b4 i (c2 ▸ hi)).1, hscore]
    · rw [List.getElem?_eq_none (by omega), List.getElem?_eq_none (by omega)]
  · apply List.ext_getElem?
    intro i
    by_cases hi : i < (P.init.estimators.get ⟨k, by omega⟩).base.bins.size
    · rw [(a4 i hi).2, (b4 i (c2 ▸ hi)).2, hscore]
    · rw [List.getElem?_eq_none (by omega), List.getElem?_eq_none (by omega)]

/-- **C109** Runs with divided groups that have results print the same means and standard deviations. -/
theorem C109_result {P P' : Problem} (hd : Subdivides G G' into) (hP : FineTask G' into P P')
    (hw : WellPosed G nodes P.world) (hw' : WellPosed G' nodes' P'.world)
    (h : WorldsAlike (FineMaterial G G' into nodes nodes') P.world P'.world)
    (hs : GroupSource G P.world P.source) (hdir : Configured P.source.direction) (hinit : FreshSet P.init)
    (hinit' : FreshSet P'.init) (ht : 1 ≤ P.threads) (ht' : 1 ≤ P'.threads) (hb : 1 ≤ P.batchsize)
    {fuel fuel' elapsed elapsed' : ℕ} {r r' : EstimatorSet} (hr : SolveResult P fuel 0 r elapsed)
    (hr' : SolveResult P' fuel' 0 r' elapsed') :
    List.Forall₂ (fun o o' : Estimator => o'.base.name = o.base.name ∧
      o'.base.means P.batchsize = o.base.means P.batchsize ∧
      o'.base.stdDevs P.batchsize = o.base.stdDevs P.batchsize) r.estimators r'.estimators := by
  refine printed_related hP.histories (hP.estimators.imp fun x x' hx => ⟨hx.1, hx.2.2.1, ?_⟩) hinit hinit' ht ht'
    hb hr hr'
  intro fuel fuel' e states states' hh hh' i
  rw [hx.2.1]
  exact C109_history hd hP hw hw' h hs hdir hh hh' _ hx.2.2 i

/-! ### Instances -/

/-- One group in two. -/
theorem twoInOne : Subdivides 1 2 fun _ => 1 := ⟨fun _ _ _ => ⟨le_rfl, le_rfl⟩, fun _ _ _ _ _ => le_rfl⟩

/-- Coal with two groups, in which different neutrons are born. -/
noncomputable def gritNodes : List MgNode :=
  [.fission (some [3 / 2, 3 / 2]) (some [1 / 4, 1, 3 / 4, 1]) [1 / 3, 1 / 3], .capture [2 / 3, 2 / 3]]

theorem gritNodes_ok : ∃ m, Multigroup.create 2 gritNodes = .ok m := by
  simp only [Multigroup.create, gritNodes, Multigroup.findNubar, Multigroup.findChi,
    Multigroup.findScatter, Multigroup.optionally, Multigroup.createReactions, Multigroup.reactionXS,
    Multigroup.oneDimensional, Multigroup.normalized_ok (G := 2) (flat := [1 / 4, 1, 3 / 4, 1]) rfl, Bind.bind,
    Except.bind]
  exact ⟨_, rfl⟩

noncomputable def grit : Material :=
  ⟨"grit", [(⟨6, "grit", fun _ => some (.multigroup gritNodes_ok.choose)⟩, 1)], 1⟩

theorem grit_groups : DividedGroups 1 2 (fun _ => 1) coalNodes gritNodes := by
  refine ⟨?_, ?_, ?_, ?_⟩
  · intro r g h1 h2
    obtain rfl | rfl : g = 1 ∨ g = 2 := by omega
    all_goals cases r <;> norm_num [specXS, nodeXS, List.findSome?_cons, coalNodes, gritNodes, entry1]
  · intro g h h1 h2 k1 k2
    obtain rfl : h = 1 := by omega
    norm_num [intoGroup, scatterTable, coalNodes, gritNodes, entry2, List.range']
  · intro g h1 h2 _
    obtain rfl | rfl : g = 1 ∨ g = 2 := by omega
    all_goals norm_num [nubarTable, coalNodes, gritNodes, entry1]
  · intro g h1 h2 _
    obtain rfl | rfl : g = 1 ∨ g = 2 := by omega
    · refine ⟨1, one_pos, fun h k1 k2 => ?_⟩
      obtain rfl : h = 1 := by omega
      norm_num [intoGroup, chiTable, coalNodes, gritNodes, entry2, List.range']
    · refine ⟨2, two_pos, fun h k1 k2 => ?_⟩
      obtain rfl : h = 1 := by omega
      norm_num [intoGroup, chiTable, coalNodes, gritNodes, entry2, List.range']

theorem grit_fine : FineMaterial 1 2 (fun _ => 1) (fun _ => coalNodes) (fun _ => gritNodes) coal grit :=
  ⟨rfl, .cons ⟨grit_groups, rfl⟩ .nil⟩

/-- A ball of coal with neutrons of the second group. -/
noncomputable def gritProblem (method : Method) : Problem :=
  { filledProblem grit method with source := { (coalProblem method).source with energy := .group 2 } }

theorem grit_wellPosed (method : Method) : WellPosed 2 (fun _ => gritNodes) (gritProblem method).world := by
  refine C109_well_posed twoInOne.range (coal_wellPosed method) (coal_filled grit_fine method method) ?_
  intro c hc m hm e he
  simp only [gritProblem, filledProblem, List.mem_cons, List.not_mem_nil, or_false] at hc
  rcases hc with rfl | rfl
  · cases hm
    simp only [grit, List.mem_cons, List.not_mem_nil, or_false] at he
    subst he
    refine ⟨gritNodes_ok.choose, rfl, gritNodes_ok.choose_spec, ?_, fun g _ => ⟨_, _, rfl, rfl⟩⟩
    intro n hn
    simp only [gritNodes, List.mem_cons, List.not_mem_nil, or_false] at hn
    rcases hn with rfl | rfl
    · refine ⟨?_, ?_, ?_⟩
      · intro x hx
        simp only [List.mem_cons, List.not_mem_nil, or_false] at hx
        rcases hx with rfl | rfl <;> norm_num
      · intro l hl x hx
        cases hl
        simp only [List.mem_cons, List.not_mem_nil, or_false] at hx
        rcases hx with rfl | rfl <;> norm_num
      · intro l hl x hx
        cases hl
        simp only [List.mem_cons, List.not_mem_nil, or_false] at hx
        rcases hx with rfl | rfl | rfl | rfl <;> norm_num
    · intro x hx
      simp only [List.mem_cons, List.not_mem_nil, or_false] at hx
      rcases hx with rfl | rfl <;> norm_num
  · cases hm

/-- Bins without energies do not tell groups apart. -/
theorem alike_of_none (G' : ℕ) (into : ℕ → ℕ) {bins : ParticleBins} (h : bins.energy = .none) :
    BinsAlike G' into bins bins := by
  refine ⟨rfl, fun d g _ _ => ?_⟩
  unfold ParticleBins.getIndex
  rw [h]
  rfl

/-- Instance of `C109_history`: fissions. -/
example (method : Method) {fuel fuel' e : ℕ} {states states' : List Particle}
    (h : (coalProblem method).history fuel e = .ok states)
    (h' : (gritProblem method).history fuel' e = .ok states') :
    crossings (ball 1 1) oneBin states' 0 = crossings (ball 1 1) oneBin states 0 := by
  refine C109_history (G := 1) (G' := 2) (nodes := fun _ => coalNodes) (nodes' := fun _ => gritNodes)
    (P := coalProblem method) (P' := gritProblem method) twoInOne
    ⟨⟨2, by norm_num, le_rfl, rfl, rfl⟩, rfl, rfl, .cons ⟨rfl, rfl, alike_of_none _ _ rfl⟩ .nil, rfl⟩
    (coal_wellPosed method) (grit_wellPosed method) (coal_filled grit_fine method method)
    ⟨rfl, ⟨1, rfl, le_rfl, le_rfl⟩, coalIn, (coal_cells method _).1 ?_, by simp [coalIn]⟩ ?_ h h' _
    (alike_of_none _ _ rfl) 0
  · change (0 : ℝ) ^ 2 + 0 ^ 2 + 0 ^ 2 < 1
    norm_num
  · change UnitVec ⟨1, 0, 0⟩
    unfold UnitVec
    norm_num

/-- Fog with two groups: scatterings into the second one from the first only. -/
noncomputable def vaporNodes : List MgNode := [.scatter [1 / 4, 1, 3 / 4, 0], .capture [1, 1]]

/-- Instance of `DividedGroups` with scatterings. -/
theorem vapor_groups : DividedGroups 1 2 (fun _ => 1) fogNodes vaporNodes := by
  refine ⟨?_, ?_, ?_, ?_⟩
  · intro r g h1 h2
    obtain rfl | rfl : g = 1 ∨ g = 2 := by omega
    all_goals cases r <;> norm_num [specXS, nodeXS, List.findSome?_cons, fogNodes, vaporNodes, entry1, colSum, entry2, List.range']
  · intro g h h1 h2 k1 k2
    obtain rfl : h = 1 := by omega
    obtain rfl | rfl : g = 1 ∨ g = 2 := by omega
    all_goals norm_num [intoGroup, scatterTable, fogNodes, vaporNodes, entry2, List.range']
  · intro g h1 h2 hf
    exact absurd (show (0 : ℝ) < 0 from hf) (lt_irrefl _)
  · intro g h1 h2 hf
    exact absurd (show (0 : ℝ) < 0 from hf) (lt_irrefl _)

/-- Six bins that have the groups one and two in the middle. -/
noncomputable def wideBins : ParticleBins :=
  ⟨some ⟨1, 0, 0⟩, .boundaries [0], .boundaries [1 / 2, 5 / 2], (3, 1)⟩

theorem wide_alike : BinsAlike 2 (fun _ => 1) sixBins wideBins := by
  refine ⟨rfl, fun d g h1 h2 => ?_⟩
  obtain rfl | rfl : g = 1 ∨ g = 2 := by omega
  all_goals norm_num [sixBins, wideBins, ParticleBins.getIndex, Bins.getIndex, upperIdx, bind, Except.bind,
    upperBound_pos, upperBound_zero]

noncomputable def wideTally : EstimatorSet :=
  ⟨[⟨⟨"out", wideBins, List.replicate 6 0, List.replicate 6 0⟩, ball 2 2, []⟩], 1000⟩

/-- An absorber with two groups. -/
noncomputable def twinNuclide : Nuclide :=
  ⟨8, "twin", fun _ => some (.multigroup ⟨none, none, none, [(.capture, [1, 1])], [1, 1], 2⟩)⟩

noncomputable def twin : Material := ⟨"twin", [(twinNuclide, 1)], 1⟩

theorem twin_fine :
    FineMaterial 1 2 (fun _ => 1) (fun _ => [.capture [1]]) (fun _ => [.capture [1, 1]]) (absorbing 1) twin := by
  refine ⟨rfl, .cons ⟨⟨?_, ?_, ?_, ?_⟩, rfl⟩ .nil⟩
  · intro r g h1 h2
    obtain rfl | rfl : g = 1 ∨ g = 2 := by omega
    all_goals cases r <;> norm_num [specXS, nodeXS, List.findSome?_cons, entry1]
  · intro g h h1 h2 k1 k2
    obtain rfl : h = 1 := by omega
    norm_num [intoGroup, scatterTable, entry2, List.range']
  · intro g h1 h2 hf
    exact absurd (show (0 : ℝ) < 0 from hf) (lt_irrefl _)
  · intro g h1 h2 hf
    exact absurd (show (0 : ℝ) < 0 from hf) (lt_irrefl _)

/-- The beam of the second group, in the absorber with two groups. -/
noncomputable def twinRun (method : Method) : Problem :=
  { refilledRun twin method with
    source := { (plainRun method).source with energy := .group 2 }
    init := wideTally }

theorem twin_wellPosed (method : Method) : WellPosed 2 (fun _ => [.capture [1, 1]]) (twinRun method).world := by
  refine C109_well_posed twoInOne.range (shell_wellPosed method) (refilled_alike twin_fine method method) ?_
  intro c hc m hm e he
  rw [refilled_material (method := method) hc hm] at he
  rw [List.mem_singleton.1 he]
  refine ⟨_, rfl, ?_, ?_, ?_⟩
  · simp [Multigroup.create, Multigroup.optionally, Multigroup.findNubar, Multigroup.findChi,
      Multigroup.findScatter, Multigroup.createReactions, Multigroup.reactionXS,
      Multigroup.oneDimensional, Multigroup.emplace, Multigroup.createTotalXS, bind, Except.bind]
  · intro n hn
    rw [List.mem_singleton.1 hn]
    intro v hv
    simp only [List.mem_cons, List.not_mem_nil, or_false] at hv
    rcases hv with rfl | rfl <;> norm_num
  · intro g hg
    exfalso
    simp [specXS, nodeXS] at hg

theorem wideTally_fresh : FreshSet wideTally := by
  refine ⟨⟨?_, ?_, ?_, ?_⟩, ⟨?_, ?_⟩, ?_⟩
  · intro e he e' he' _
    rw [List.mem_singleton.1 he, List.mem_singleton.1 he']
  · intro e he q hq
    rw [List.mem_singleton.1 he] at hq
    cases hq
  · intro e he
    rw [List.mem_singleton.1 he]
    exact ⟨rfl, rfl⟩
  · intro e he q hq
    rw [List.mem_singleton.1 he] at hq
    cases hq
  · intro e he
    rw [List.mem_singleton.1 he]
    refine ⟨.boundaries [0], .boundaries [1 / 2, 5 / 2], .boundaries (bs := [0]) ?_,
      .boundaries (bs := [1 / 2, 5 / 2]) ?_, rfl⟩
    · simp [Bins.createBoundaries, Bins.boundariesIncreasing]
    · norm_num [Bins.createBoundaries, Bins.boundariesIncreasing]
  · intro e he q hq
    rw [List.mem_singleton.1 he] at hq
    cases hq
  · rfl

theorem twin_task (method : Method) : FineTask 2 (fun _ => 1) (plainRun method) (twinRun method) :=
  ⟨⟨2, by norm_num, le_rfl, rfl, rfl⟩, rfl, rfl, .cons ⟨rfl, rfl, wide_alike⟩ .nil, rfl⟩

/-- Instance of `C109_result`: both runs have results and print the same. -/
example (method : Method) : ∃ r k r' k', SolveResult (plainRun method) (2 ^ 52) 0 r k ∧
    SolveResult (twinRun method) (2 ^ 52) 0 r' k' ∧
    List.Forall₂ (fun o o' : Estimator => o'.base.name = o.base.name ∧
      o'.base.means 1000 = o.base.means 1000 ∧ o'.base.stdDevs 1000 = o.base.stdDevs 1000)
      r.estimators r'.estimators := by
  obtain ⟨r, k, h⟩ := plain_result method
  have hs' := fine_source (twin_task method) (refilled_alike twin_fine method method) (plain_source method)
  obtain ⟨r', k', h'⟩ := absorber_result (P := twinRun method) (twin_wellPosed method) (by
    intro c _ m _ e _ g h1 h2
    simp [specXS, nodeXS]) (refilled_within twin method) hs' (plain_configured method) wideTally_fresh (by
    intro x hx
    rw [List.mem_singleton.1 hx]
    exact ⟨rfl, fun d e => ⟨_, rfl⟩⟩)
  refine ⟨r, k, r', k', h, h', ?_⟩
  exact C109_result (G := 1) (G' := 2) (P := plainRun method)
    (P' := twinRun method) (nodes := fun _ => [.capture [1]]) (nodes' := fun _ => [.capture [1, 1]])
    twoInOne (twin_task method) (shell_wellPosed method) (twin_wellPosed method)
    (refilled_alike twin_fine method method)
    (plain_source method) (plain_configured method) shellTally_fresh wideTally_fresh
    (by norm_num [plainRun, shellProblem, slabProblem]) (by norm_num [twinRun, refilledRun])
    (by norm_num [plainRun, shellProblem, slabProblem]) h h'

end Minimc.Props
